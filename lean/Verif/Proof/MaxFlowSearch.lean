import Verif.Proof.MaxFlow

/-!
The search for an augmenting path: what a kernel and the search leave behind.
-/
namespace Verif.MaxFlow

variable {g : Net} {once : Bool} {top : Int} {vals : Nat → Int} {s t : Nat} {k k' : K} {r : Nat} {stale : Bool}

/-- The entries of row `v` before entry `m` with capacity lead to visited vertices. -/
def ClosedTo (g : Net) (vals : Nat → Int) (visited : Nat → Bool) (v m : Nat) : Prop :=
  ∀ i ∈ g.row v, i < m → 0 < vals i → visited (g.ind i) = true

/-- How far a task has got in its row. -/
def Pc.lim (g : Net) (r : Nat) : Pc → Nat
  | .loop i => i
  | .front i | .par i | .cmp i | .sel i _ | .put i _ | .sink i => i + 1
  | _ => g.ptr (r + 1)

/-- A vertex that was in the frontier is there until its task has taken it out. -/
def Tr (p : Pc) (f : Bool) : Prop := ((p = .start ∨ p = .clear) ∧ f = true) ∨ (p ≠ .start ∧ p ≠ .clear ∧ f = false)

structure Prog (g : Net) (vals : Nat → Int) (t : Nat) (s0 : Search) (k : K) : Prop where
  fv : ∀ v, k.mem.front v = true → k.mem.visited v = true
  closed : ∀ v < g.n, k.mem.visited v = true → k.mem.front v = true ∨ (∃ r < g.n, ∃ i, k.pc r = .front i ∧ g.ind i = v) ∨
    ClosedTo g vals k.mem.visited v ((k.pc v).lim g v)
  found : k.mem.found = true → k.mem.visited t = true
  seen : ∀ v, s0.visited v = true → k.mem.visited v = true
  track : ∀ v < g.n, s0.visited v = true → s0.front v = false → k.mem.front v = false
  track' : ∀ v < g.n, s0.visited v = true → s0.front v = true → Tr (k.pc v) (k.mem.front v)
  fresh : ∀ r < g.n, ∀ i, (k.pc r).pend = some i → s0.visited (g.ind i) = false
  claimed : ∀ r < g.n, ∀ i, (k.pc r).entry = some i → k.mem.visited (g.ind i) = true

/-- A task moves on without touching memory. -/
theorem Prog.move {s0 : Search} (h : Prog g vals t s0 k) {p : Pc}
    (hf : ∀ i, k.pc r ≠ .front i)
    (hl : ClosedTo g vals k.mem.visited r ((k.pc r).lim g r) → ClosedTo g vals k.mem.visited r (p.lim g r))
    (hs : Tr (k.pc r) (k.mem.front r) → Tr p (k.mem.front r))
    (hp : ∀ i, p.pend = some i → (k.pc r).pend = some i) (hc : ∀ i, p.entry = some i → (k.pc r).entry = some i) :
    Prog g vals t s0 { k with pc := upd k.pc r p } := by
  refine ⟨h.fv, ?_, h.found, h.seen, h.track, ?_, ?_, ?_⟩
  · intro v hv hvis
    rcases h.closed v hv hvis with a | ⟨q, hq, i, e, hi⟩ | a
    · exact .inl a
    · refine .inr (.inl ⟨q, hq, i, ?_, hi⟩)
      have hne : q ≠ r := fun ee => hf i (ee ▸ e)
      exact (upd_ne _ _ hne).trans e
    · refine .inr (.inr ?_)
      by_cases e : v = r
      · subst e
        show ClosedTo g vals k.mem.visited v ((upd k.pc v p v).lim g v)
        rw [upd_same]; exact hl a
      · show ClosedTo g vals k.mem.visited v ((upd k.pc r p v).lim g v)
        rw [upd_ne _ _ e]; exact a
  · intro v hv h1 h2
    have := h.track' v hv h1 h2
    show Tr (upd k.pc r p v) (k.mem.front v)
    by_cases e : v = r
    · subst e; rw [upd_same]; exact hs this
    · rw [upd_ne _ _ e]; exact this
  · intro q hq i hi
    by_cases e : q = r
    · subst e; exact h.fresh q hq i (hp i (by simpa using hi))
    · exact h.fresh q hq i (by simpa [upd_ne _ _ e] using hi)
  · intro q hq i hi
    by_cases e : q = r
    · subst e; exact h.claimed q hq i (hc i (by simpa using hi))
    · exact h.claimed q hq i (by simpa [upd_ne _ _ e] using hi)

/-- Changes of `parents` and `potentialFlows` do not matter. -/
theorem Prog.frame {s0 : Search} (h : Prog g vals t s0 k) (p : Nat → Option Nat) (f : Nat → Int) :
    Prog g vals t s0 { k with mem := { k.mem with parent := p, pf := f } } :=
  ⟨h.fv, h.closed, h.found, h.seen, h.track, h.track', h.fresh, h.claimed⟩

theorem Prog.step {s0 : Search} (h : Prog g vals t s0 k) (hi : Inv g top vals s k) (hs : Step g once vals t k r stale k') :
    Prog g vals t s0 k' := by
  cases hs with
  | out _ => exact h
  | idle _ _ => exact h
  | skip hr e hf => exact h.move (by simp [e]) (by rw [e]; exact id) (by simp [Tr, e, hf]) (by simp [Pc.pend]) (by simp [Pc.entry])
  | enter hr e hf => exact h.move (by simp [e]) (by rw [e]; exact id) (by simp [Tr, hf]) (by simp [Pc.pend]) (by simp [Pc.entry])
  | next hr i e hlt hc =>
    refine h.move (by simp [e]) ?_ (by simp [Tr, e]) (by simp [Pc.pend]) (by simp [Pc.entry])
    rw [e]
    intro a j hj hji h0
    by_cases ee : j = i
    · subst ee
      rcases hc with b | b
      · omega
      · exact b
    · exact a j hj (show j < i by simp only [Pc.lim] at hji; omega) h0
  | stop hr i e hlt =>
    refine h.move (by simp [e]) ?_ (by simp [Tr, e]) (by simp [Pc.pend]) (by simp [Pc.entry])
    rw [e]
    intro a j hj _ h0
    exact a j hj (show j < i by have := (mem_row.1 hj).2; omega) h0
  | par hr i e =>
    exact (h.move (p := .cmp i) (by simp [e]) (by rw [e]; exact id) (by simp [Tr, e]) (by simp [Pc.pend, e]) (by simp [Pc.entry, e])).frame _ _
  | put hr i x e =>
    exact (h.move (p := .sink i) (by simp [e]) (by rw [e]; exact id) (by simp [Tr, e]) (by simp [Pc.pend]) (by simp [Pc.entry, e])).frame _ _
  | low hr i e _ => exact h.move (by simp [e]) (by rw [e]; exact id) (by simp [Tr, e]) (by simp [Pc.pend, e]) (by simp [Pc.entry, e])
  | high hr i e _ => exact h.move (by simp [e]) (by rw [e]; exact id) (by simp [Tr, e]) (by simp [Pc.pend, e]) (by simp [Pc.entry, e])
  | sel hr i x e => exact h.move (by simp [e]) (by rw [e]; exact id) (by simp [Tr, e]) (by simp [Pc.pend, e]) (by simp [Pc.entry, e])
  | sink hr i e =>
    have M := h.move (r := r) (p := .loop (i + 1)) (by simp [e]) (by rw [e]; exact id) (by simp [Tr, e]) (by simp [Pc.pend]) (by simp [Pc.entry])
    refine ⟨M.fv, M.closed, ?_, M.seen, M.track, M.track', M.fresh, M.claimed⟩
    intro hb
    have hb : k.mem.found = true ∨ g.ind i = t := by simpa using hb
    rcases hb with hb | hb
    · exact h.found hb
    · rw [← hb]; exact h.claimed r hr i (by rw [e]; rfl)
  | clear hr e =>
    refine ⟨?_, ?_, h.found, h.seen, ?_, ?_, ?_, ?_⟩
    · intro v hv
      by_cases ee : v = r
      · subst ee; simp at hv
      · exact h.fv v (by simpa [upd_ne _ _ ee] using hv)
    · intro v hv hvis
      by_cases ee : v = r
      · subst ee
        refine .inr (.inr ?_)
        intro j hj hlt
        have : (upd k.pc v (.loop (g.ptr v)) v).lim g v = g.ptr v := by rw [upd_same]; rfl
        change j < (upd k.pc v (.loop (g.ptr v)) v).lim g v at hlt
        have := (mem_row.1 hj).1
        omega
      · rcases h.closed v hv hvis with a | ⟨q, hq, i, e', hi⟩ | a
        · exact .inl ((upd_ne _ _ ee).trans a)
        · refine .inr (.inl ⟨q, hq, i, ?_, hi⟩)
          have hne : q ≠ r := fun x => by rw [x, e] at e'; cases e'
          exact (upd_ne _ _ hne).trans e'
        · refine .inr (.inr ?_)
          show ClosedTo g vals k.mem.visited v ((upd k.pc r (.loop (g.ptr r)) v).lim g v)
          rw [upd_ne _ _ ee]; exact a
    · intro v hv h1 h2
      show upd k.mem.front r false v = false
      unfold upd; split
      · rfl
      · exact h.track v hv h1 h2
    · intro v hv h1 h2
      show Tr (upd k.pc r (.loop (g.ptr r)) v) (upd k.mem.front r false v)
      by_cases ee : v = r
      · subst ee; simp [Tr]
      · rw [upd_ne _ _ ee, upd_ne _ _ ee]; exact h.track' v hv h1 h2
    · intro q hq i hi
      by_cases ee : q = r
      · subst ee; simp [Pc.pend] at hi
      · exact h.fresh q hq i (by simpa [upd_ne _ _ ee] using hi)
    · intro q hq i hi
      by_cases ee : q = r
      · subst ee; simp [Pc.entry] at hi
      · exact h.claimed q hq i (by simpa [upd_ne _ _ ee] using hi)
  | claim hr i e hlt hv hn hc =>
    have mono : ∀ v, k.mem.visited v = true → upd k.mem.visited (g.ind i) true v = true := by
      intro v hv
      unfold upd; split
      · rfl
      · exact hv
    have s0i : s0.visited (g.ind i) = false := by
      cases hh : s0.visited (g.ind i) with
      | false => rfl
      | true => rw [h.seen _ hh] at hc; cases hc
    refine ⟨fun v hv => mono v (h.fv v hv), ?_, fun hb => mono _ (h.found hb), fun v hv => mono v (h.seen v hv), h.track, ?_, ?_, ?_⟩
    · intro v hvn hvis
      by_cases ev : v = g.ind i
      · exact .inr (.inl ⟨r, hr, i, upd_same _ _ _, ev.symm⟩)
      · have hvis : k.mem.visited v = true := by
          change upd k.mem.visited (g.ind i) true v = true at hvis
          rwa [upd_ne _ _ ev] at hvis
        rcases h.closed v hvn hvis with a | ⟨q, hq, j, e', hj⟩ | a
        · exact .inl a
        · refine .inr (.inl ⟨q, hq, j, ?_, hj⟩)
          have hne : q ≠ r := fun x => by rw [x, e] at e'; cases e'
          exact (upd_ne _ _ hne).trans e'
        · refine .inr (.inr ?_)
          show ClosedTo g vals (upd k.mem.visited (g.ind i) true) v ((upd k.pc r (.front i) v).lim g v)
          by_cases ee : v = r
          · subst ee
            rw [upd_same]
            rw [e] at a
            intro j hj hji h0
            by_cases ej : j = i
            · subst ej; exact upd_same _ _ _
            · exact mono _ (a j hj (show j < i by simp only [Pc.lim] at hji; omega) h0)
          · rw [upd_ne _ _ ee]
            exact fun j hj hji h0 => mono _ (a j hj hji h0)
    · intro v hvn h1 h2
      have := h.track' v hvn h1 h2
      show Tr (upd k.pc r (.front i) v) (k.mem.front v)
      by_cases ee : v = r
      · subst ee
        rw [upd_same]
        simp [Tr, e] at this
        simp [Tr, this]
      · rw [upd_ne _ _ ee]; exact this
    · intro q hq j hj
      by_cases ee : q = r
      · subst ee
        simp only [upd_same, Pc.pend] at hj
        cases hj; exact s0i
      · exact h.fresh q hq j (by simpa [upd_ne _ _ ee] using hj)
    · intro q hq j hj
      by_cases ee : q = r
      · subst ee
        simp only [upd_same, Pc.entry] at hj
        cases hj; exact upd_same _ _ _
      · exact mono _ (h.claimed q hq j (by simpa [upd_ne _ _ ee] using hj))
  | front hr i e =>
    have hpd := hi.pend r hr i (by rw [e]; rfl)
    have hfr := h.fresh r hr i (by rw [e]; rfl)
    refine ⟨?_, ?_, h.found, h.seen, ?_, ?_, ?_, ?_⟩
    · intro v hv
      by_cases ev : v = g.ind i
      · rw [ev]; exact hpd.1
      · exact h.fv v (by simpa [upd_ne _ _ ev] using hv)
    · intro v hvn hvis
      by_cases ev : v = g.ind i
      · left; rw [ev]; exact upd_same _ _ _
      · rcases h.closed v hvn hvis with a | ⟨q, hq, j, e', hj⟩ | a
        · exact .inl ((upd_ne _ _ ev).trans a)
        · refine .inr (.inl ⟨q, hq, j, ?_, hj⟩)
          have hne : q ≠ r := fun x => by
            rw [x, e] at e'; cases e'; exact ev hj.symm
          exact (upd_ne _ _ hne).trans e'
        · refine .inr (.inr ?_)
          show ClosedTo g vals k.mem.visited v ((upd k.pc r (.par i) v).lim g v)
          by_cases ee : v = r
          · subst ee; rw [upd_same]; rw [e] at a; exact a
          · rw [upd_ne _ _ ee]; exact a
    · intro v hvn h1 h2
      have hne : v ≠ g.ind i := fun x => by rw [x, hfr] at h1; cases h1
      exact (upd_ne _ _ hne).trans (h.track v hvn h1 h2)
    · intro v hvn h1 h2
      have hne : v ≠ g.ind i := fun x => by rw [x, hfr] at h1; cases h1
      have := h.track' v hvn h1 h2
      show Tr (upd k.pc r (.par i) v) (upd k.mem.front (g.ind i) true v)
      rw [upd_ne _ _ hne]
      by_cases ee : v = r
      · subst ee
        rw [upd_same]
        simp [Tr, e] at this
        simp [Tr, this]
      · rw [upd_ne _ _ ee]; exact this
    · intro q hq j hj
      by_cases ee : q = r
      · subst ee
        simp only [upd_same, Pc.pend] at hj
        cases hj; exact hfr
      · exact h.fresh q hq j (by simpa [upd_ne _ _ ee] using hj)
    · intro q hq j hj
      by_cases ee : q = r
      · subst ee
        simp only [upd_same, Pc.entry] at hj
        cases hj; exact hpd.1
      · exact h.claimed q hq j (by simpa [upd_ne _ _ ee] using hj)

/-! ## Tasks that do not overlap -/

def Pc.idle : Pc → Prop
  | .start | .done => True
  | _ => False

/-- All other tasks are before their start or done. -/
def Alone (g : Net) (k : K) (r : Nat) : Prop := ∀ q < g.n, q ≠ r → (k.pc q).idle

structure SInv (g : Net) (k : K) : Prop where
  act : ∀ r < g.n, ¬ (k.pc r).idle → 0 < k.mem.pf r
  sel : ∀ r < g.n, ∀ i x, k.pc r = .sel i x → x = k.mem.pf r
  put : ∀ r < g.n, ∀ i x, k.pc r = .put i x → 0 < x
  vis : ∀ v < g.n, k.mem.visited v = true → 0 < k.mem.pf v ∨ ∃ r < g.n, ∃ i, (k.pc r).pend = some i ∧ g.ind i = v

theorem Alone.step (h : Alone g k r) (hs : Step g once vals t k r stale k') : Alone g k' r := by
  intro q hq hne
  have := h q hq hne
  cases hs <;> first | exact this | (show (upd k.pc r _ q).idle; rw [upd_ne _ _ hne]; exact this)

/-- A task moves on without touching memory. -/
theorem SInv.move (h : SInv g k) {p : Pc} (ha : ¬ p.idle → 0 < k.mem.pf r)
    (hs : ∀ i x, p = .sel i x → x = k.mem.pf r) (hq : ∀ i x, p = .put i x → 0 < x)
    (hp : ∀ i, (k.pc r).pend = some i → p.pend = some i) :
    SInv g { k with pc := upd k.pc r p } := by
  refine ⟨?_, ?_, ?_, ?_⟩
  · intro q hqn hi
    by_cases e : q = r
    · subst e; exact ha (by simpa using hi)
    · exact h.act q hqn (by simpa [upd_ne _ _ e] using hi)
  · intro q hqn i x hi
    by_cases e : q = r
    · subst e; exact hs i x (by simpa using hi)
    · exact h.sel q hqn i x (by simpa [upd_ne _ _ e] using hi)
  · intro q hqn i x hi
    by_cases e : q = r
    · subst e; exact hq i x (by simpa using hi)
    · exact h.put q hqn i x (by simpa [upd_ne _ _ e] using hi)
  · intro v hv hvis
    rcases h.vis v hv hvis with a | ⟨q, hqn, i, e, hi⟩
    · exact .inl a
    · refine .inr ⟨q, hqn, i, ?_, hi⟩
      show (upd k.pc r p q).pend = some i
      by_cases ee : q = r
      · subst ee; rw [upd_same]; exact hp i e
      · rw [upd_ne _ _ ee]; exact e

/-- Changes of `frontier`, `parents` and `isSinkFound` do not matter. -/
theorem SInv.frame (h : SInv g k) (f : Nat → Bool) (p : Nat → Option Nat) (b : Bool) :
    SInv g { k with mem := { k.mem with front := f, parent := p, found := b } } :=
  ⟨h.act, h.sel, h.put, h.vis⟩

theorem SInv.step {s0 : Search} (h : SInv g k) (hi : Inv g top vals s k) (hp : Prog g vals t s0 k) (ha : Alone g k r)
    (hs : Step g once vals t k r false k') : SInv g k' := by
  have rd : k.read r false = k.mem.pf r := rfl
  cases hs with
  | out _ => exact h
  | idle _ _ => exact h
  | skip hr e hf => exact h.move (by simp [Pc.idle]) (by simp) (by simp) (by simp [e, Pc.pend])
  | enter hr e hf =>
    refine h.move (fun _ => ?_) (by simp) (by simp) (by simp [e, Pc.pend])
    rcases h.vis r hr (hp.fv r hf) with a | ⟨q, hq, i, e', _⟩
    · exact a
    · by_cases ee : q = r
      · subst ee; rw [e] at e'; cases e'
      · have := ha q hq ee
        revert this e'
        cases k.pc q <;> simp [Pc.pend, Pc.idle]
  | clear hr e =>
    exact (h.move (p := .loop (g.ptr r)) (fun _ => h.act r hr (by simp [e, Pc.idle])) (by simp) (by simp)
      (by simp [e, Pc.pend])).frame _ _ _
  | next hr i e _ _ =>
    exact h.move (fun _ => h.act r hr (by simp [e, Pc.idle])) (by simp) (by simp) (by simp [e, Pc.pend])
  | stop hr i e _ => exact h.move (by simp [Pc.idle]) (by simp) (by simp) (by simp [e, Pc.pend])
  | front hr i e =>
    exact (h.move (p := .par i) (fun _ => h.act r hr (by simp [e, Pc.idle])) (by simp) (by simp)
      (by simp [e, Pc.pend])).frame _ _ _
  | par hr i e =>
    exact (h.move (p := .cmp i) (fun _ => h.act r hr (by simp [e, Pc.idle])) (by simp) (by simp)
      (by simp [e, Pc.pend])).frame _ _ _
  | sink hr i e =>
    exact (h.move (p := .loop (i + 1)) (fun _ => h.act r hr (by simp [e, Pc.idle])) (by simp) (by simp)
      (by simp [e, Pc.pend])).frame _ _ _
  | low hr i e hc =>
    have := (hi.entry r hr i (by rw [e]; rfl)).2
    exact h.move (fun _ => h.act r hr (by simp [e, Pc.idle])) (by simp)
      (by simp only [Pc.put.injEq]; rintro j x ⟨rfl, rfl⟩; exact this) (by simp [e, Pc.pend])
  | high hr i e hc =>
    exact h.move (fun _ => h.act r hr (by simp [e, Pc.idle]))
      (by simp only [Pc.sel.injEq]; rintro j x ⟨rfl, rfl⟩; exact rd) (by simp) (by simp [e, Pc.pend])
  | sel hr i x e =>
    have hx := h.sel r hr i x e
    have hpos := h.act r hr (by simp [e, Pc.idle])
    have : (if once then x else k.read r false) = k.mem.pf r := by rw [rd, ← hx]; simp
    rw [this]
    exact h.move (fun _ => hpos) (by simp) (by simp only [Pc.put.injEq]; rintro j x ⟨rfl, rfl⟩; exact hpos)
      (by simp [e, Pc.pend])
  | claim hr i e hlt hv hn hc =>
    have hact := h.act r hr (by simp [e, Pc.idle])
    refine ⟨?_, ?_, ?_, ?_⟩
    · intro q hqn hi
      by_cases ee : q = r
      · subst ee; exact hact
      · exact h.act q hqn (by simpa [upd_ne _ _ ee] using hi)
    · intro q hqn j x hj
      by_cases ee : q = r
      · subst ee; simp at hj
      · exact h.sel q hqn j x (by simpa [upd_ne _ _ ee] using hj)
    · intro q hqn j x hj
      by_cases ee : q = r
      · subst ee; simp at hj
      · exact h.put q hqn j x (by simpa [upd_ne _ _ ee] using hj)
    · intro v hvn hvis
      by_cases ev : v = g.ind i
      · exact .inr ⟨r, hr, i, by simp [Pc.pend], ev.symm⟩
      · have hvis : k.mem.visited v = true := by
          change upd k.mem.visited (g.ind i) true v = true at hvis
          rwa [upd_ne _ _ ev] at hvis
        rcases h.vis v hvn hvis with a | ⟨q, hqn, j, e', hj⟩
        · exact .inl a
        · have hne : q ≠ r := fun x => by rw [x, e] at e'; cases e'
          exact .inr ⟨q, hqn, j, by simpa [upd_ne _ _ hne] using e', hj⟩
  | put hr i x e =>
    have hpd := hi.pend r hr i (by rw [e]; rfl)
    have hx := h.put r hr i x e
    have keep : ∀ v, 0 < k.mem.pf v → 0 < upd k.mem.pf (g.ind i) x v := by
      intro v hv
      rw [upd_ne _ _ fun ee => by rw [ee, hpd.2] at hv; omega]; exact hv
    have hact := h.act r hr (by simp [e, Pc.idle])
    refine ⟨?_, ?_, ?_, ?_⟩
    · intro q hqn hi
      by_cases ee : q = r
      · subst ee; exact keep q hact
      · exact keep q (h.act q hqn (by simpa [upd_ne _ _ ee] using hi))
    · intro q hqn j y hj
      by_cases ee : q = r
      · subst ee; simp at hj
      · have := ha q hqn ee
        have hj : k.pc q = .sel j y := by simpa [upd_ne _ _ ee] using hj
        rw [hj] at this; exact this.elim
    · intro q hqn j y hj
      by_cases ee : q = r
      · subst ee; simp at hj
      · exact h.put q hqn j y (by simpa [upd_ne _ _ ee] using hj)
    · intro v hvn hvis
      by_cases ev : v = g.ind i
      · left; rw [ev]; show 0 < upd k.mem.pf (g.ind i) x (g.ind i); rw [upd_same]; exact hx
      · rcases h.vis v hvn hvis with a | ⟨q, hqn, j, e', hj⟩
        · exact .inl (keep v a)
        · have hne : q ≠ r := fun y => by
            rw [y, e] at e'; cases e'; exact ev hj.symm
          exact .inr ⟨q, hqn, j, by simpa [upd_ne _ _ hne] using e', hj⟩

/-! ## Tasks end -/

/-- Steps a task still needs. -/
def Pc.need (g : Net) (r : Nat) : Pc → Nat
  | .start => 8 * (g.ptr (r + 1) - g.ptr r) + 3
  | .clear => 8 * (g.ptr (r + 1) - g.ptr r) + 2
  | .loop i => 8 * (g.ptr (r + 1) - i) + 1
  | .front i => 8 * (g.ptr (r + 1) - i)
  | .par i => 8 * (g.ptr (r + 1) - i) - 1
  | .cmp i => 8 * (g.ptr (r + 1) - i) - 2
  | .sel i _ => 8 * (g.ptr (r + 1) - i) - 3
  | .put i _ => 8 * (g.ptr (r + 1) - i) - 4
  | .sink i => 8 * (g.ptr (r + 1) - i) - 5
  | .done => 0

theorem need_zero (h : Inv g top vals s k) (hr : r < g.n) (h0 : (k.pc r).need g r = 0) : k.pc r = .done := by
  have := fun i => h.entry r hr i
  cases e : k.pc r <;> rw [e] at h0 this <;> simp only [Pc.need] at h0
  all_goals first
    | rfl
    | omega
    | (have a := mem_row.1 (this _ rfl).1; omega)

theorem need_le (h : Inv g top vals s k) (hr : r < g.n) :
    (k.pc r).need g r ≤ 8 * (g.ptr (r + 1) - g.ptr r) + 3 := by
  have := fun i => h.entry r hr i
  have lp := fun i => h.loop r hr i
  cases e : k.pc r <;> rw [e] at this lp <;> simp only [Pc.need]
  all_goals first
    | omega
    | (have a := mem_row.1 (this _ rfl).1; omega)
    | (have a := lp _ rfl; omega)

theorem need_step (h : Inv g top vals s k) (hr : r < g.n) (hs : Step g once vals t k r stale k') :
    (k'.pc r).need g r ≤ (k.pc r).need g r - 1 := by
  cases hs with
  | out h => omega
  | idle _ e => rw [e]; simp [Pc.need]
  | skip _ e _ => simp [Pc.need]
  | enter _ e _ => simp [Pc.need, e]
  | clear _ e => simp [Pc.need, e]
  | next _ i e _ _ => simp only [upd_same, Pc.need, e]; omega
  | claim _ i e _ _ _ _ => simp only [upd_same, Pc.need, e]; omega
  | stop _ i e _ => simp [Pc.need]
  | front _ i e => simp only [upd_same, Pc.need, e]; omega
  | par _ i e => simp only [upd_same, Pc.need, e]; omega
  | low _ i e _ => simp only [upd_same, Pc.need, e]; omega
  | high _ i e _ => simp only [upd_same, Pc.need, e]; omega
  | sel _ i x e => simp only [upd_same, Pc.need, e]; omega
  | put _ i x e => simp only [upd_same, Pc.need, e]; omega
  | sink _ i e =>
    have := mem_row.1 (h.entry r hr i (by rw [e]; rfl)).1
    simp only [upd_same, Pc.need, e]; omega

theorem step_total (h : Inv g top vals s k) (hg : Ok g) (r : Nat) (stale : Bool) :
    ∃ k', step g once vals t k r stale = some k' := by
  unfold step
  split
  · exact ⟨_, rfl⟩
  next hr =>
  have hr : r < g.n := by omega
  split
  case h_3 i e =>
    split
    · next hi =>
      split
      · exact ⟨_, rfl⟩
      · split
        · next hn =>
          have := hg.range r hr i (mem_row.2 ⟨h.loop r hr i e, hi⟩)
          omega
        · split <;> exact ⟨_, rfl⟩
    · exact ⟨_, rfl⟩
  case h_6 => split <;> exact ⟨_, rfl⟩
  all_goals exact ⟨_, rfl⟩

theorem step_other (hs : Step g once vals t k r stale k') {q : Nat} (hq : q ≠ r) : k'.pc q = k.pc q := by
  cases hs <;> first | rfl | exact upd_ne _ _ hq

theorem run_append (l l' : List (Nat × Bool)) : ∀ k, run g once vals t (l ++ l') k = (run g once vals t l k).bind (run g once vals t l') := by
  induction l with
  | nil => intro k; rfl
  | cons x l ih =>
    intro k
    obtain ⟨r, stale⟩ := x
    simp only [List.cons_append, run]
    cases step g once vals t k r stale with
    | none => rfl
    | some k' => exact ih k'

/-- A task that is given enough steps in a row ends. -/
theorem run_replicate (hg : Ok g) (R : K → Prop) (hI : ∀ k, R k → Inv g top vals s k) (hr : r < g.n)
    (hstep : ∀ k k', R k → Step g once vals t k r false k' → R k') : ∀ (m : Nat) (k : K), R k → (k.pc r).need g r ≤ m →
    ∃ k', run g once vals t (List.replicate m (r, false)) k = some k' ∧ R k' ∧ k'.pc r = .done ∧ ∀ q, q ≠ r → k'.pc q = k.pc q := by
  intro m
  induction m with
  | zero => intro k hk h0; exact ⟨k, rfl, hk, need_zero (hI k hk) hr (by omega), fun _ _ => rfl⟩
  | succ m ih =>
    intro k hk hm
    obtain ⟨k1, h1⟩ := step_total (once := once) (t := t) (hI k hk) hg r false
    have hs := step_rel h1
    have := need_step (hI k hk) hr hs
    obtain ⟨k2, h2, h3, h4, h5⟩ := ih k1 (hstep k k1 hk hs) (by omega)
    refine ⟨k2, ?_, h3, h4, fun q hq => (h5 q hq).trans (step_other hs hq)⟩
    rw [List.replicate_succ, run, h1]; exact h2

theorem run_serial (R : K → Prop)
    (hb : ∀ r < g.n, ∀ k, R k → ∃ k', run g once vals t (block g r) k = some k' ∧ R k' ∧ k'.pc r = .done ∧ ∀ q, q ≠ r → k'.pc q = k.pc q) :
    ∀ (order : List Nat) (k : K), (∀ r ∈ order, r < g.n) → R k →
      ∃ k', run g once vals t (serial g order) k = some k' ∧ R k' ∧ (∀ q ∈ order, k'.pc q = .done) ∧
        ∀ q, k.pc q = .done → k'.pc q = .done := by
  intro order
  induction order with
  | nil => intro k _ hk; exact ⟨k, rfl, hk, by simp, fun _ h => h⟩
  | cons r order ih =>
    intro k ho hk
    obtain ⟨k1, h1, h2, h3, h4⟩ := hb r (ho r List.mem_cons_self) k hk
    obtain ⟨k2, h5, h6, h7, h8⟩ := ih k1 (fun q hq => ho q (List.mem_cons_of_mem _ hq)) h2
    refine ⟨k2, ?_, h6, ?_, ?_⟩
    · show run g once vals t (block g r ++ serial g order) k = some k2
      rw [run_append, h1]; exact h5
    · intro q hq
      rcases List.mem_cons.1 hq with rfl | hq
      · exact h8 q h3
      · exact h7 q hq
    · intro q hq
      by_cases e : q = r
      · subst e; exact h8 q h3
      · exact h8 q ((h4 q e).trans hq)

/-! ## Kernels -/

/-- Between kernels. -/
structure BInv (g : Net) (top : Int) (vals : Nat → Int) (s : Nat) (m : Search) : Prop where
  vis : ∀ v, m.pf v ≠ 0 → m.visited v = true
  nonneg : ∀ v, 0 ≤ m.pf v
  chain : ∀ v, m.pf v ≠ 0 → ∃ l, Chain g top vals s m v l
  fv : ∀ v, m.front v = true → m.visited v = true
  closed : ∀ v < g.n, m.visited v = true → m.front v = true ∨ ClosedTo g vals m.visited v (g.ptr (v + 1))

/-- What a kernel does to the frontier. -/
structure After (g : Net) (t : Nat) (m m' : Search) : Prop where
  found : m'.found = true → m'.visited t = true
  seen : ∀ v, m.visited v = true → m'.visited v = true
  out : ∀ v < g.n, m.visited v = true → m'.front v = false

def enter (m : Search) : K := { mem := { m with found := false }, pc := fun _ => .start, old := m.pf }

theorem BInv.enter {m : Search} (h : BInv g top vals s m) :
    Inv g top vals s (enter m) ∧ Prog g vals t m (enter m) := by
  have np : ∀ r i, ((MaxFlow.enter m).pc r).pend ≠ some i := by intro r i; simp [MaxFlow.enter, Pc.pend]
  have ne : ∀ r i, ((MaxFlow.enter m).pc r).entry ≠ some i := by intro r i; simp [MaxFlow.enter, Pc.entry]
  refine ⟨⟨fun r _ i hi => absurd hi (ne r i), ?_, fun r _ i hi => absurd hi (np r i), fun r _ _ _ i _ hi => absurd hi (np r i), ?_, ?_, ?_,
    h.vis, h.nonneg, fun v => .inr rfl, ?_⟩, h.fv, ?_, ?_, fun _ h => h, fun _ _ _ h => h, ?_, fun r _ i hi => absurd hi (np r i),
    fun r _ i hi => absurd hi (ne r i)⟩
  · simp [MaxFlow.enter]
  · simp [MaxFlow.enter, Pc.pend']
  · simp [MaxFlow.enter]
  · simp [MaxFlow.enter]
  · intro v hv
    obtain ⟨l, hl⟩ := h.chain v hv
    exact ⟨l, hl.congr (fun _ _ => rfl) fun _ _ => rfl⟩
  · intro v hv hvis
    rcases h.closed v hv hvis with a | a
    · exact .inl a
    · exact .inr (.inr a)
  · simp [MaxFlow.enter]
  · intro v _ _ hf
    exact .inl ⟨.inl rfl, hf⟩

theorem leave {m : Search} (hi : Inv g top vals s k) (hp : Prog g vals t m k) (hd : ∀ r < g.n, k.pc r = .done) :
    BInv g top vals s k.mem ∧ After g t m k.mem := by
  refine ⟨⟨hi.vis, hi.nonneg, hi.chain, hp.fv, ?_⟩, ⟨hp.found, hp.seen, ?_⟩⟩
  · intro v hv hvis
    rcases hp.closed v hv hvis with a | ⟨q, hq, i, e, _⟩ | a
    · exact .inl a
    · rw [hd q hq] at e; cases e
    · rw [hd v hv] at a; exact .inr a
  · intro v hv hvis
    cases hf : m.front v with
    | false => exact hp.track v hv hvis hf
    | true =>
      rcases hp.track' v hv hvis hf with a | a
      · rw [hd v hv] at a; rcases a.1 with e | e <;> cases e
      · exact a.2.2

theorem pf_step (h : Inv g top vals s k) (hs : Step g once vals t k r stale k') {v : Nat} (hv : 0 < k.mem.pf v) :
    0 < k'.mem.pf v := by
  cases hs with
  | put hr i x e =>
    have := (h.pend r hr i (by rw [e]; rfl)).2
    show 0 < upd k.mem.pf (g.ind i) x v
    rw [upd_ne _ _ (by rintro rfl; omega)]
    exact hv
  | _ => exact hv

theorem kernel_once (hg : Ok g) (ht : 0 < top) {m : Search} (h : BInv g top vals s m) (sched : List (Nat × Bool)) :
    ∃ m', kernel g true vals t sched m = some m' ∧ BInv g top vals s m' ∧ After g t m m' ∧
      ∀ v, 0 < m.pf v → 0 < m'.pf v := by
  let R : K → Prop := fun k => Inv g top vals s k ∧ Prog g vals t m k ∧ ∀ v, 0 < m.pf v → 0 < k.mem.pf v
  have hstep : ∀ r stale k k', R k → Step g true vals t k r stale k' → R k' :=
    fun r stale k k' hk hs => ⟨hk.1.step hg ht hs fun _ _ _ => .inl rfl, hk.2.1.step hk.1 hs, fun v hv => pf_step hk.1 hs (hk.2.2 v hv)⟩
  have any : ∀ (l : List (Nat × Bool)) k, R k → ∃ k', run g true vals t l k = some k' ∧ R k' := by
    intro l
    induction l with
    | nil => intro k hk; exact ⟨k, rfl, hk⟩
    | cons x l ih =>
      intro k hk
      obtain ⟨r, stale⟩ := x
      obtain ⟨k1, h1⟩ := step_total (once := true) (t := t) hk.1 hg r stale
      obtain ⟨k2, h2, h3⟩ := ih k1 (hstep r stale k k1 hk (step_rel h1))
      exact ⟨k2, by rw [run, h1]; exact h2, h3⟩
  obtain ⟨k1, h1, h2⟩ := any sched (enter m) ⟨(h.enter (t := t)).1, h.enter.2, fun _ h => h⟩
  obtain ⟨k2, h3, h4, h5, -⟩ := run_serial (once := true) (t := t) R
    (fun r hr k hk => run_replicate hg R (fun _ h => h.1) hr (fun k k' => hstep r false k k') _ k hk (need_le hk.1 hr))
    (List.range g.n) k1 (fun r hr => List.mem_range.1 hr) h2
  have hl := leave h4.1 h4.2.1 fun r hr => h5 r (List.mem_range.2 hr)
  refine ⟨k2.mem, ?_, hl.1, hl.2, h4.2.2⟩
  unfold kernel
  have : run g true vals t (sched ++ serial g (List.range g.n)) (enter m) = some k2 := by
    rw [run_append, h1]; exact h3
  change (match run g true vals t (sched ++ serial g (List.range g.n)) (enter m) with | none => none | some k => some k.mem) = _
  rw [this]

theorem kernel_serial (hg : Ok g) (ht : 0 < top) {m : Search} (h : BInv g top vals s m)
    (hv : ∀ v < g.n, m.visited v = true → 0 < m.pf v) (order : List Nat) (ho : ∀ r ∈ order, r < g.n) :
    ∃ m', kernel g once vals t (serial g order) m = some m' ∧ BInv g top vals s m' ∧ After g t m m' ∧
      ∀ v < g.n, m'.visited v = true → 0 < m'.pf v := by
  let R : K → Prop := fun k => Inv g top vals s k ∧ Prog g vals t m k ∧ SInv g k ∧ ∀ q < g.n, (k.pc q).idle
  have hb : ∀ r < g.n, ∀ k, R k → ∃ k', run g once vals t (block g r) k = some k' ∧ R k' ∧ k'.pc r = .done ∧
      ∀ q, q ≠ r → k'.pc q = k.pc q := by
    intro r hr k hk
    obtain ⟨k', h1, h2, h3, h4⟩ := run_replicate (once := once) (t := t) hg
      (fun k => Inv g top vals s k ∧ Prog g vals t m k ∧ SInv g k ∧ Alone g k r) (fun _ h => h.1) hr
      (fun k k' hk hs => ⟨hk.1.step hg ht hs fun i x e => .inr (hk.2.2.1.sel r hr i x e).symm, hk.2.1.step hk.1 hs,
        hk.2.2.1.step hk.1 hk.2.1 hk.2.2.2 hs, hk.2.2.2.step hs⟩)
      _ k ⟨hk.1, hk.2.1, hk.2.2.1, fun q hq _ => hk.2.2.2 q hq⟩ (need_le hk.1 hr)
    refine ⟨k', h1, ⟨h2.1, h2.2.1, h2.2.2.1, ?_⟩, h3, h4⟩
    intro q hq
    by_cases e : q = r
    · subst e; rw [h3]; trivial
    · exact h2.2.2.2 q hq e
  have start : R (enter m) := by
    refine ⟨(h.enter (t := t)).1, h.enter.2, ⟨?_, ?_, ?_, ?_⟩, fun _ _ => trivial⟩
    · intro r _ hi; exact absurd trivial hi
    · simp [enter]
    · simp [enter]
    · intro v hvn hvis; exact .inl (hv v hvn hvis)
  obtain ⟨k2, h3, h4, h5, -⟩ := run_serial (once := once) (t := t) R hb (order ++ List.range g.n) (enter m)
    (fun r hr => (List.mem_append.1 hr).elim (ho r) List.mem_range.1) start
  have hd : ∀ r < g.n, k2.pc r = .done := fun r hr => h5 r (List.mem_append.2 (.inr (List.mem_range.2 hr)))
  obtain ⟨l1, l2⟩ := leave h4.1 h4.2.1 hd
  refine ⟨k2.mem, ?_, l1, l2, ?_⟩
  · unfold kernel
    have : run g once vals t (serial g order ++ serial g (List.range g.n)) (enter m) = some k2 := by
      rw [← h3]; unfold serial; rw [List.flatMap_append]
    change (match run g once vals t (serial g order ++ serial g (List.range g.n)) (enter m) with | none => none | some k => some k.mem) = _
    rw [this]
  · intro v hvn hvis
    rcases h4.2.2.1.vis v hvn hvis with a | ⟨q, hq, i, e, _⟩
    · exact a
    · rw [hd q hq] at e; cases e

/-! ## The search -/

/-- The number of vertices not yet expanded. -/
def todo (g : Net) (m : Search) : Nat := ((List.range g.n).filter fun v => !(m.visited v && !m.front v)).length

theorem filter_length_le {p q : Nat → Bool} : ∀ (l : List Nat), (∀ v ∈ l, q v = true → p v = true) →
    (l.filter q).length ≤ (l.filter p).length := by
  intro l
  induction l with
  | nil => intro _; simp
  | cons x l ih =>
    intro h
    have := ih fun v hv => h v (List.mem_cons_of_mem _ hv)
    have hx := h x List.mem_cons_self
    rw [List.filter_cons, List.filter_cons]
    by_cases hq : q x = true
    · simp [hq, hx hq, this]
    · by_cases hp : p x = true
      · simp [hq, hp]; omega
      · simp [hq, hp, this]

theorem filter_length_lt {p q : Nat → Bool} : ∀ (l : List Nat), (∀ v ∈ l, q v = true → p v = true) →
    (∃ v ∈ l, p v = true ∧ q v = false) → (l.filter q).length < (l.filter p).length := by
  intro l
  induction l with
  | nil => rintro _ ⟨v, hv, _⟩; exact absurd hv List.not_mem_nil
  | cons x l ih =>
    rintro h ⟨v, hv, h1, h2⟩
    have hl := fun v hv => h v (List.mem_cons_of_mem x hv)
    have hx := h x List.mem_cons_self
    rw [List.filter_cons, List.filter_cons]
    rcases List.mem_cons.1 hv with rfl | hv
    · have := filter_length_le l hl
      simp [h1, h2]; omega
    · have := ih hl ⟨v, hv, h1, h2⟩
      by_cases hq : q x = true
      · simp [hq, hx hq, this]
      · by_cases hp : p x = true
        · simp [hq, hp]; omega
        · simp [hq, hp, this]

theorem After.todo_lt {m m' : Search} (h : After g t m m') (hfv : ∀ v, m.front v = true → m.visited v = true)
    (hx : ∃ v < g.n, m.front v = true) : todo g m' < todo g m := by
  refine filter_length_lt _ ?_ ?_
  · intro v hv h1
    have hv := List.mem_range.1 hv
    cases hvis : m.visited v with
    | false => simp
    | true =>
      rw [h.seen v hvis, h.out v hv hvis] at h1
      simp at h1
  · obtain ⟨v, hv, hf⟩ := hx
    have hvis := hfv v hf
    exact ⟨v, List.mem_range.2 hv, by simp [hf], by simp [h.seen v hvis, h.out v hv hvis]⟩

theorem searchLoop_ok (sched : Nat → List (Nat × Bool)) (R : Search → Prop) (hfv : ∀ m, R m → ∀ v, m.front v = true → m.visited v = true)
    (hk : ∀ c m, R m → ∃ m', kernel g once vals t (sched c) m = some m' ∧ R m' ∧ After g t m m') :
    ∀ (fuel c : Nat) (m : Search), R m → todo g m < fuel →
      ∃ m', searchLoop g once vals t sched fuel c m = some m' ∧ R m' ∧
        ((∀ v < g.n, m'.front v = false) ∨ m'.visited t = true) := by
  intro fuel
  induction fuel with
  | zero => intro c m _ h; omega
  | succ fuel ih =>
    intro c m hm hf
    unfold searchLoop
    split
    · next e =>
      refine ⟨m, rfl, hm, .inl ?_⟩
      intro v hv
      have := List.all_eq_true.1 e v (List.mem_range.2 hv)
      simpa using this
    · next e =>
      obtain ⟨m', h1, h2, h3⟩ := hk c m hm
      rw [h1]
      simp only
      split
      · next hfo => exact ⟨m', rfl, h2, .inr (h3.found hfo)⟩
      · have hx : ∃ v < g.n, m.front v = true := by
          have e : ¬ ∀ v ∈ List.range g.n, (!m.front v) = true := fun a => e (List.all_eq_true.2 a)
          refine Decidable.byContradiction fun hno => e fun v hv => ?_
          cases hfr : m.front v with
          | false => rfl
          | true => exact absurd ⟨v, List.mem_range.1 hv, hfr⟩ hno
        have := h3.todo_lt (hfv m hm) hx
        exact ih _ _ h2 (by omega)

/-- The state at the start of a search. -/
def begin (top : Int) (s : Nat) (parent : Nat → Option Nat) : Search :=
  { visited := upd (fun _ => false) s true, front := upd (fun _ => false) s true, parent := upd parent s none,
    pf := upd (fun _ => 0) s top, found := false }

theorem begin_ok (ht : 0 < top) (parent : Nat → Option Nat) : BInv g top vals s (begin top s parent) ∧
    ∀ v < g.n, (begin top s parent).visited v = true → 0 < (begin top s parent).pf v := by
  have only : ∀ v, (begin top s parent).visited v = true → v = s := by
    intro v hv
    refine Decidable.byContradiction fun e => ?_
    change upd (fun _ => false) s true v = true at hv
    rw [upd_ne _ _ e] at hv; cases hv
  have pfs : (begin top s parent).pf s = top := by simp [begin]
  have pfo : ∀ v, v ≠ s → (begin top s parent).pf v = 0 := fun v e => by simp [begin, upd_ne _ _ e]
  have viss : (begin top s parent).visited s = true := by simp [begin]
  refine ⟨⟨?_, ?_, ?_, fun v hv => hv, ?_⟩, ?_⟩
  · intro v hv
    by_cases e : v = s
    · rw [e]; exact viss
    · exact absurd (pfo v e) hv
  · intro v
    by_cases e : v = s
    · rw [e, pfs]; omega
    · rw [pfo v e]; omega
  · intro v hv
    by_cases e : v = s
    · rw [e]; exact ⟨_, .base pfs (upd_same _ _ _)⟩
    · exact absurd (pfo v e) hv
  · intro v _ hv
    rw [only v hv]
    exact .inl (by simp [begin])
  · intro v _ hv
    rw [only v hv, pfs]; exact ht

theorem todo_le (m : Search) : todo g m ≤ g.n := by
  have := List.length_filter_le (fun v => !(m.visited v && !m.front v)) (List.range g.n)
  simpa [todo] using this

theorem search_once (hg : Ok g) (ht : 0 < top) (sched : Nat → List (Nat × Bool)) (parent : Nat → Option Nat) :
    ∃ f, search g true top vals s t sched parent = some f ∧ BInv g top vals s f ∧ 0 < f.pf s := by
  have := todo_le (g := g) (begin top s parent)
  obtain ⟨f, h1, h2, -⟩ := searchLoop_ok (once := true) (t := t) (vals := vals) sched (fun m => BInv g top vals s m ∧ 0 < m.pf s) (fun m h => h.1.fv)
    (fun c m h => by
      obtain ⟨m', e1, e2, e3, e4⟩ := kernel_once (t := t) hg ht h.1 (sched c)
      exact ⟨m', e1, ⟨e2, e4 s h.2⟩, e3⟩) (g.n + 2) 0 (begin top s parent) ⟨(begin_ok ht parent).1, by simpa [begin] using ht⟩ (by omega)
  exact ⟨f, h1, h2⟩

theorem search_serial (hg : Ok g) (ht : 0 < top) (htn : t < g.n) (order : Nat → List Nat) (ho : ∀ c, ∀ r ∈ order c, r < g.n)
    (parent : Nat → Option Nat) :
    ∃ f, search g once top vals s t (fun c => serial g (order c)) parent = some f ∧ BInv g top vals s f ∧
      (f.pf t ≤ 0 → f.visited s = true ∧ f.visited t = false ∧
        ∀ u < g.n, f.visited u = true → ∀ i ∈ g.row u, 0 < vals i → f.visited (g.ind i) = true) := by
  have := todo_le (g := g) (begin top s parent)
  obtain ⟨f, h1, ⟨h2, h3, h4⟩, h5⟩ := searchLoop_ok (once := once) (t := t) (vals := vals) (fun c => serial g (order c))
    (fun m => BInv g top vals s m ∧ (∀ v < g.n, m.visited v = true → 0 < m.pf v) ∧ m.visited s = true) (fun m h => h.1.fv)
    (by
      rintro c m ⟨a, b, d⟩
      obtain ⟨m', e1, e2, e3, e4⟩ := kernel_serial (once := once) (t := t) hg ht a b (order c) (ho c)
      exact ⟨m', e1, ⟨e2, e4, e3.seen s d⟩, e3⟩)
    (g.n + 2) 0 (begin top s parent) ⟨(begin_ok ht parent).1, (begin_ok (g := g) (vals := vals) ht parent).2, by simp [begin]⟩
    (by omega)
  refine ⟨f, h1, h2, ?_⟩
  intro h0
  have hnt : f.visited t ≠ true := fun e => by
    have := h3 t htn e
    omega
  refine ⟨h4, by simpa using hnt, ?_⟩
  intro u hu hvis i hi hpos
  rcases h5 with h5 | h5
  · rcases h2.closed u hu hvis with a | a
    · rw [h5 u hu] at a; cases a
    · exact a i hi (mem_row.1 hi).2 hpos
  · exact absurd h5 hnt

/-- The source keeps its potential flow. -/
theorem search_source (hg : Ok g) (ht : 0 < top) {sched : Nat → List (Nat × Bool)} {parent : Nat → Option Nat} {f : Search}
    (h : search g true top vals s t sched parent = some f) : f.pf s > 0 := by
  obtain ⟨f', h1, -, h2⟩ := search_once (vals := vals) (s := s) (t := t) hg ht sched parent
  rw [h1] at h
  cases h
  exact h2

end Verif.MaxFlow
