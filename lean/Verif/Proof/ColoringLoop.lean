import Verif.Proof.Coloring

/-!
The loop invariants of the two colourings.
-/
namespace Verif.Coloring

variable {W : Type} [LinearOrder W] {g : Graph W} {order : Nat → List Nat} {s : St} {c : Nat}

/-- The adjacency lists stay within the graph and are symmetric; the colour value `top` is out of the way. -/
structure Ok (g : Graph W) : Prop where
  range : ∀ v < g.n, ∀ u ∈ g.adj v, u < g.n
  symm : ∀ v < g.n, ∀ u ∈ g.adj v, v ∈ g.adj u
  top : 2 * g.n + 2 < g.top

/-- Adjacent rows have different weights. -/
def Distinct (g : Graph W) : Prop := ∀ v < g.n, ∀ u ∈ g.adj v, u ≠ v → g.w u ≠ g.w v

/-- No two adjacent coloured rows share a colour. -/
def Separate (g : Graph W) (color : Nat → Nat) : Prop :=
  ∀ v < g.n, ∀ u ∈ g.adj v, u ≠ v → color v ≠ g.top → color u ≠ g.top → color u ≠ color v

theorem exists_free_max (hg : Ok g) {mask : Nat → Nat} (h : ∃ v < g.n, mask v = 0) :
    ∃ v < g.n, mask v = 0 ∧ isMax g mask v = true := by
  obtain ⟨x, hx, h0⟩ := h
  obtain ⟨v, hv, hp, hm⟩ := exists_max g.w (fun v => mask v = 0) (List.range g.n) ⟨x, List.mem_range.2 hx, h0⟩
  have hv := List.mem_range.1 hv
  exact ⟨v, hv, hp, isMax_iff.2 fun k hk h0 => hm k (List.mem_range.2 (hg.range v hv k hk)) h0⟩

theorem exists_free_min (hg : Ok g) {mask : Nat → Nat} (h : ∃ v < g.n, mask v = 0) :
    ∃ v < g.n, mask v = 0 ∧ lowest g mask (g.w v) (g.adj v) = true := by
  obtain ⟨x, hx, h0⟩ := h
  obtain ⟨v, hv, hp, hm⟩ := exists_min g.w (fun v => mask v = 0) (List.range g.n) ⟨x, List.mem_range.2 hx, h0⟩
  have hv := List.mem_range.1 hv
  exact ⟨v, hv, hp, (lowest_iff _).2 fun k hk h0 => hm k (List.mem_range.2 (hg.range v hv k hk)) h0⟩

/-! ## `fast_independent_sets` -/

/-- At the head of the loop. -/
structure Inv (g : Graph W) (c : Nat) (s : St) : Prop where
  split : ∀ v < g.n, (s.mask v = 0 ∧ s.color v = g.top) ∨ (s.mask v ≠ 0 ∧ 1 ≤ s.color v ∧ s.color v ≤ c)
  used : ∀ j, 1 ≤ j → j ≤ c → ∃ v < g.n, s.color v = j
  separate : Distinct g → Separate g s.color
  room : c + 2 * free g s.mask ≤ 2 * g.n

omit [LinearOrder W] in
theorem Inv.start : Inv g 0 (Coloring.start g) := by
  refine ⟨fun v _ => .inl ⟨rfl, rfl⟩, by omega, fun _ v _ u _ _ h => absurd rfl h, ?_⟩
  have := free_le (g := g) (Coloring.start g).mask
  omega

/-- After the first parallel loop of a round. -/
structure Mid (g : Graph W) (c : Nat) (s0 s : St) : Prop where
  mask : s.mask = s0.mask
  color : ∀ v < g.n, s.color v =
      if s0.mask v = 0 then (if isMax g s0.mask v then c + 1 else if isMin g s0.mask v then c + 2 else g.top)
      else s0.color v
  flag : s.flag = true ↔ ∃ v < g.n, s0.mask v = 0 ∧ isMax g s0.mask v = true
  flag' : s.flag' = true ↔ ∃ v < g.n, s0.mask v = 0 ∧ isMax g s0.mask v = false ∧ isMin g s0.mask v = true

theorem Inv.pick (h : Inv g c s) (ho : Orders g order) :
    Mid g c s (kernel order (pick g c) { s with flag := false, flag' := false }) := by
  obtain ⟨h1, h2, h3, h4⟩ := kernel_pick (c := c) ho { s with flag := false, flag' := false }
  refine ⟨h1, ?_, by simpa using h3, by simpa using h4⟩
  intro v hv
  rw [h2 v hv]
  show (if s.mask v = 0 then _ else _) = _
  by_cases h0 : s.mask v = 0
  · have : s.color v = g.top := by
      rcases h.split v hv with e | e
      · exact e.2
      · exact absurd h0 e.1
    simp only [this]
  · simp only [h0, if_false]

theorem Mid.separate {s0 : St} (m : Mid g c s0 s) (h : Inv g c s0) (hg : Ok g) (hd : Distinct g) :
    Separate g s.color := by
  intro v hv u hu hne hcv hcu
  have hun := hg.range v hv u hu
  have hvu := hg.symm v hv u hu
  have hw := hd v hv u hu hne
  have hroom := h.room
  have htop := hg.top
  rw [m.color v hv] at hcv ⊢
  rw [m.color u hun] at hcu ⊢
  by_cases h0 : s0.mask v = 0
  · by_cases h1 : s0.mask u = 0
    · rw [if_pos h0] at hcv ⊢
      rw [if_pos h1] at hcu ⊢
      by_cases mv : isMax g s0.mask v = true
      · by_cases mu : isMax g s0.mask u = true
        · have a := isMax_iff.1 mv u hu h1
          have b := isMax_iff.1 mu v hvu h0
          exact absurd (le_antisymm (not_lt.1 a) (not_lt.1 b)) hw
        · rw [if_pos mv, if_neg mu] at *
          split at hcu
          · split <;> omega
          · exact absurd rfl hcu
      · by_cases mu : isMax g s0.mask u = true
        · rw [if_neg mv] at *
          rw [if_pos mu] at *
          split at hcv
          · split <;> omega
          · exact absurd rfl hcv
        · rw [if_neg mv] at *
          rw [if_neg mu] at *
          by_cases nv : isMin g s0.mask v = true
          · by_cases nu : isMin g s0.mask u = true
            · have a := isMin_iff.1 nv u hu h1
              have b := isMin_iff.1 nu v hvu h0
              exact absurd (le_antisymm (not_lt.1 b) (not_lt.1 a)) hw
            · rw [if_neg nu] at hcu; exact absurd rfl hcu
          · rw [if_neg nv] at hcv; exact absurd rfl hcv
    · have := (h.split u hun).resolve_left fun e => h1 e.1
      rw [if_neg h1, if_pos h0]
      split
      · omega
      · split <;> omega
  · by_cases h1 : s0.mask u = 0
    · have := (h.split v hv).resolve_left fun e => h0 e.1
      rw [if_neg h0, if_pos h1]
      split
      · omega
      · split <;> omega
    · have hsv := (h.split v hv).resolve_left fun e => h0 e.1
      have hsu := (h.split u hun).resolve_left fun e => h1 e.1
      rw [if_neg h0, if_neg h1]
      exact h.separate hd v hv u hu hne (by omega) (by omega)

theorem Mid.kept {s0 : St} (m : Mid g c s0 s) (h : Inv g c s0) (hg : Ok g) {v : Nat} (hv : v < g.n)
    (hc : s0.color v ≤ c) : s.color v = s0.color v := by
  rw [m.color v hv]
  split
  · have := h.room
    have := hg.top
    have := (h.split v hv).resolve_right fun e => e.1 ‹_›
    omega
  · rfl

/-- The loop goes on: the invariant again, with two more colours. -/
theorem Mid.next {s0 : St} (m : Mid g c s0 s) (h : Inv g c s0) (hg : Ok g) (ho : Orders g order)
    (hf : s.flag = true) (hf' : s.flag' = true) :
    Inv g (c + 2) (kernel order (settle2 c) s) ∧
      free g (kernel order (settle2 c) s).mask < free g s0.mask := by
  obtain ⟨h1, h2⟩ := kernel_settle2 (c := c) ho s
  obtain ⟨x, hx, x0, xm⟩ := m.flag.1 hf
  obtain ⟨y, hy, y0, ym, yn⟩ := m.flag'.1 hf'
  have cx : s.color x = c + 1 := by rw [m.color x hx, if_pos x0, if_pos xm]
  have cy : s.color y = c + 2 := by rw [m.color y hy, if_pos y0, if_neg (by simp [ym]), if_pos yn]
  have hroom := h.room
  have htop := hg.top
  have hlt : free g (kernel order (settle2 c) s).mask < free g s0.mask := by
    refine free_lt ?_ ⟨x, hx, x0, ?_⟩
    · intro v hv h0
      rw [h2 v hv] at h0
      split at h0
      · cases h0
      · rw [← m.mask]; exact h0
    · rw [h2 x hx, if_pos ⟨m.mask ▸ x0, .inl cx⟩]; decide
  refine ⟨⟨?_, ?_, ?_, by omega⟩, hlt⟩
  · intro v hv
    rw [h2 v hv, h1]
    have hm : s.mask v = s0.mask v := congrFun m.mask v
    have hc := m.color v hv
    by_cases h0 : s0.mask v = 0
    · rw [if_pos h0] at hc
      split at hc
      · right; rw [if_pos ⟨hm.trans h0, .inl hc⟩]; omega
      · split at hc
        · right; rw [if_pos ⟨hm.trans h0, .inr hc⟩]; omega
        · left
          rw [if_neg (fun e => by omega)]
          exact ⟨hm.trans h0, hc⟩
    · right
      rw [if_neg h0] at hc
      have := (h.split v hv).resolve_left fun e => h0 e.1
      rw [if_neg (fun e => h0 (hm ▸ e.1))]
      omega
  · intro j hj hjc
    rw [h1]
    by_cases e1 : j = c + 1
    · exact ⟨x, hx, cx.trans e1.symm⟩
    · by_cases e2 : j = c + 2
      · exact ⟨y, hy, cy.trans e2.symm⟩
      · obtain ⟨v, hv, hcv⟩ := h.used j hj (by omega)
        exact ⟨v, hv, (m.kept h hg hv (by omega)).trans hcv⟩
  · intro hd
    rw [h1]
    exact m.separate h hg hd

/-- What the function delivers. -/
structure Good (g : Graph W) (s : St) (k : Nat) : Prop where
  bounds : ∀ v < g.n, 1 ≤ s.color v ∧ s.color v ≤ k
  used : ∀ j, 1 ≤ j → j ≤ k → ∃ v < g.n, s.color v = j
  separate : Distinct g → Separate g s.color

theorem Mid.done {s0 : St} (m : Mid g c s0 s) (h : Inv g c s0) (hg : Ok g) (hf : s.flag = false) : Good g s c := by
  have none : ∀ v < g.n, s0.mask v ≠ 0 := by
    intro v hv h0
    have := m.flag.2 (exists_free_max hg ⟨v, hv, h0⟩)
    simp [hf] at this
  refine ⟨?_, ?_, m.separate h hg⟩
  · intro v hv
    have := (h.split v hv).resolve_left fun e => none v hv e.1
    rw [m.kept h hg hv this.2.2]; omega
  · intro j hj hjc
    obtain ⟨v, hv, hcv⟩ := h.used j hj hjc
    exact ⟨v, hv, (m.kept h hg hv (by omega)).trans hcv⟩

theorem Mid.done' {s0 : St} (m : Mid g c s0 s) (h : Inv g c s0) (hg : Ok g) (hf : s.flag = true)
    (hf' : s.flag' = false) : Good g s (c + 1) := by
  have all : ∀ v < g.n, s0.mask v = 0 → isMax g s0.mask v = true := by
    intro x hx x0
    by_contra hxm
    obtain ⟨v, hv, ⟨v0, vm⟩, hmin⟩ := exists_min g.w (fun v => s0.mask v = 0 ∧ isMax g s0.mask v = false)
      (List.range g.n) ⟨x, List.mem_range.2 hx, x0, by simpa using hxm⟩
    have hv := List.mem_range.1 hv
    have hn : isMin g s0.mask v ≠ true := by
      intro e
      have := m.flag'.2 ⟨v, hv, v0, vm, e⟩
      simp [hf'] at this
    rw [Ne, isMin_iff] at hn
    apply hn
    intro k hk k0 hlt
    have hkn := hg.range v hv k hk
    refine hmin k (List.mem_range.2 hkn) ⟨k0, ?_⟩ hlt
    by_contra hkm
    exact isMax_iff.1 (by simpa using hkm) v (hg.symm v hv k hk) v0 hlt
  refine ⟨?_, ?_, m.separate h hg⟩
  · intro v hv
    rw [m.color v hv]
    by_cases h0 : s0.mask v = 0
    · rw [if_pos h0, if_pos (all v hv h0)]; omega
    · have := (h.split v hv).resolve_left fun e => h0 e.1
      rw [if_neg h0]; omega
  · intro j hj hjc
    by_cases e1 : j = c + 1
    · obtain ⟨x, hx, x0, xm⟩ := m.flag.1 hf
      exact ⟨x, hx, by rw [m.color x hx, if_pos x0, if_pos xm, e1]⟩
    · obtain ⟨v, hv, hcv⟩ := h.used j hj (by omega)
      exact ⟨v, hv, (m.kept h hg hv (by omega)).trans hcv⟩

theorem fastLoop_good (hg : Ok g) (ho : Orders g order) : ∀ (fuel c : Nat) (s : St), Inv g c s → free g s.mask < fuel →
    ∃ r, fastLoop g order fuel c s = some r ∧ Good g r.1 r.2 := by
  intro fuel
  induction fuel with
  | zero => intro c s _ h; omega
  | succ fuel ih =>
    intro c s h hf
    have m := h.pick (g := g) ho
    unfold fastLoop
    simp only
    split
    · next e => exact ⟨_, rfl, m.done h hg e⟩
    · next e =>
      split
      · next e' => exact ⟨_, rfl, m.done' h hg (by simpa using e) e'⟩
      · next e' =>
        obtain ⟨hi, hlt⟩ := m.next h hg ho (by simpa using e) (by simpa using e')
        exact ih _ _ hi (by omega)

/-! ## `maximum_independent_sets` -/

/-- Each uncoloured row, and each row of a larger colour, has a neighbour of each colour up to `c`. -/
def Greedy (g : Graph W) (c : Nat) (color : Nat → Nat) : Prop :=
  ∀ v < g.n, ∀ j, 1 ≤ j → j ≤ c → (color v = g.top ∨ j < color v) → ∃ u ∈ g.adj v, color u = j

structure MInv (g : Graph W) (c : Nat) (s : St) : Prop where
  split : ∀ v < g.n, (s.mask v = 0 ∧ s.color v = g.top) ∨ (s.mask v = 1 ∧ 1 ≤ s.color v ∧ s.color v ≤ c)
  used : ∀ j, 1 ≤ j → j ≤ c → ∃ v < g.n, s.color v = j
  separate : Distinct g → Separate g s.color
  greedy : Greedy g c s.color
  room : c + free g s.mask ≤ g.n

/-- Within a round: some rows have colour `c+1`, some rows are barred from it. -/
structure EInv (g : Graph W) (c : Nat) (s : St) : Prop where
  split : ∀ v < g.n, (s.mask v = 0 ∧ s.color v = g.top) ∨ (s.mask v = 1 ∧ 1 ≤ s.color v ∧ s.color v ≤ c + 1) ∨
    (s.mask v = 2 ∧ s.color v = g.top ∧ ∃ u ∈ g.adj v, s.color u = c + 1)
  used : ∀ j, 1 ≤ j → j ≤ c + 1 → ∃ v < g.n, s.color v = j
  separate : Distinct g → Separate g s.color
  greedy : Greedy g c s.color
  small : c < g.n

omit [LinearOrder W] in
theorem MInv.start : MInv g 0 (Coloring.start g) := by
  refine ⟨fun v _ => .inl ⟨rfl, rfl⟩, by omega, fun _ v _ u _ _ h => absurd rfl h, ?_, ?_⟩
  · intro v _ j h1 h2; omega
  have := free_le (g := g) (Coloring.start g).mask
  omega

/-- Colouring further rows with `c+1`: rows that were uncoloured, have no neighbour of that colour, and are
smallest among the free rows around them. -/
theorem extend_color (hg : Ok g) {color color' mask : Nat → Nat} (hc : c < g.n)
    (hcol : ∀ v < g.n, color' v = if mask v = 0 ∧ lowest g mask (g.w v) (g.adj v) = true then c + 1 else color v)
    (htop : ∀ v < g.n, mask v = 0 → color v = g.top)
    (hno : ∀ v < g.n, mask v = 0 → ∀ u ∈ g.adj v, color u ≠ c + 1) :
    (Distinct g → Separate g color → Separate g color') ∧ (Greedy g c color → Greedy g c color') ∧
    (∀ v < g.n, color v ≠ g.top → color' v = color v) := by
  have ht := hg.top
  have keep : ∀ v < g.n, color v ≠ g.top → color' v = color v := by
    intro v hv h
    rw [hcol v hv, if_neg]
    exact fun e => h (htop v hv e.1)
  refine ⟨?_, ?_, keep⟩
  · intro hd hs v hv u hu hne hcv hcu
    have hun := hg.range v hv u hu
    have hvu := hg.symm v hv u hu
    rw [hcol v hv] at hcv ⊢
    rw [hcol u hun] at hcu ⊢
    by_cases pv : mask v = 0 ∧ lowest g mask (g.w v) (g.adj v) = true
    · by_cases pu : mask u = 0 ∧ lowest g mask (g.w u) (g.adj u) = true
      · have a := (lowest_iff _).1 pv.2 u hu pu.1
        have b := (lowest_iff _).1 pu.2 v hvu pv.1
        exact absurd (le_antisymm (not_lt.1 b) (not_lt.1 a)) (hd v hv u hu hne)
      · rw [if_pos pv, if_neg pu]
        exact hno v hv pv.1 u hu
    · by_cases pu : mask u = 0 ∧ lowest g mask (g.w u) (g.adj u) = true
      · rw [if_pos pu, if_neg pv]
        exact fun e => hno u hun pu.1 v hvu e.symm
      · rw [if_neg pv] at hcv ⊢
        rw [if_neg pu] at hcu ⊢
        exact hs v hv u hu hne hcv hcu
  · intro hgr v hv j hj hjc h
    have : color v = g.top ∨ j < color v := by
      rw [hcol v hv] at h
      split at h
      · next e => exact .inl (htop v hv e.1)
      · exact h
    obtain ⟨u, hu, hcu⟩ := hgr v hv j hj hjc this
    exact ⟨u, hu, (keep u (hg.range v hv u hu) (by omega)).trans hcu⟩

theorem MInv.first (h : MInv g c s) (hg : Ok g) (ho : Orders g order) :
    let s1 := kernel order (pickMin g c) { s with flag := false }
    (s1.flag = false → s1.mask = s.mask ∧ (∀ v < g.n, s1.color v = s.color v) ∧ ∀ v < g.n, s.mask v ≠ 0) ∧
    (s1.flag = true → EInv g c (kernel order (settle c) s1) ∧
      free g (kernel order (settle c) s1).mask < free g s.mask) := by
  intro s1
  obtain ⟨p1, p2, p3⟩ := kernel_pickMin (c := c) ho { s with flag := false }
  change s1.mask = s.mask at p1
  change ∀ v < g.n, s1.color v = if s.mask v = 0 ∧ lowest g s.mask (g.w v) (g.adj v) = true then c + 1 else s.color v at p2
  have p3 : s1.flag = true ↔ ∃ v < g.n, s.mask v = 0 ∧ lowest g s.mask (g.w v) (g.adj v) = true := by
    simpa using p3
  have htop := hg.top
  constructor
  · intro hf
    have none : ∀ v < g.n, s.mask v ≠ 0 := by
      intro v hv h0
      have := p3.2 (exists_free_min hg ⟨v, hv, h0⟩)
      simp [hf] at this
    refine ⟨p1, ?_, none⟩
    intro v hv
    rw [p2 v hv, if_neg (fun e => none v hv e.1)]
  · intro hf
    obtain ⟨q1, _, q3⟩ := kernel_settle (c := c) ho s1
    obtain ⟨x, hx, x0, xm⟩ := p3.1 hf
    have cx : s1.color x = c + 1 := by rw [p2 x hx, if_pos ⟨x0, xm⟩]
    have hlt : free g (kernel order (settle c) s1).mask < free g s.mask := by
      refine free_lt ?_ ⟨x, hx, x0, ?_⟩
      · intro v hv h0
        rw [q3 v hv] at h0
        split at h0
        · cases h0
        · rw [← p1]; exact h0
      · rw [q3 x hx, if_pos ⟨p1 ▸ x0, cx⟩]; decide
    have hroom := h.room
    have hc : c < g.n := by omega
    have hfree : ∀ v < g.n, s.mask v = 0 → s.color v = g.top := by
      intro v hv h0
      rcases h.split v hv with e | e
      · exact e.2
      · omega
    have hno : ∀ v < g.n, s.mask v = 0 → ∀ u ∈ g.adj v, s.color u ≠ c + 1 := by
      intro v hv _ u hu e
      rcases h.split u (hg.range v hv u hu) with e' | e' <;> omega
    obtain ⟨e1, e2, e3⟩ := extend_color hg hc p2 hfree hno
    refine ⟨⟨?_, ?_, ?_, ?_, hc⟩, hlt⟩
    · intro v hv
      rw [q3 v hv, q1]
      have hm : s1.mask v = s.mask v := congrFun p1 v
      have hcv := p2 v hv
      rcases h.split v hv with e | e
      · split at hcv
        · right; left
          rw [if_pos ⟨hm.trans e.1, hcv⟩]; omega
        · left
          rw [if_neg (fun a => by omega)]
          exact ⟨hm.trans e.1, hcv.trans e.2⟩
      · right; left
        rw [if_neg (fun a => by omega)] at hcv ⊢
        omega
    · intro j hj hjc
      rw [q1]
      by_cases e : j = c + 1
      · exact ⟨x, hx, cx.trans e.symm⟩
      · obtain ⟨v, hv, hcv⟩ := h.used j hj (by omega)
        exact ⟨v, hv, (e3 v hv (by omega)).trans hcv⟩
    · intro hd
      rw [q1]
      exact e1 hd (h.separate hd)
    · rw [q1]; exact e2 h.greedy

/-- The three loops of one turn of the inner loop. -/
theorem EInv.turn (h : EInv g c s) (hg : Ok g) (ho : Orders g order) :
    let s1 := kernel order (exclude g c) { s with flag := false }
    let s2 := kernel order (pickMin g c) s1
    let s3 := kernel order (settle c) s2
    EInv g c s3 ∧ (s3.flag = true → free g s3.mask < free g s.mask) ∧
      (∀ v < g.n, s3.mask v = 0 → s.mask v = 0) ∧ (s3.flag = false → ∀ v < g.n, s3.mask v ≠ 0) := by
  intro s1 s2 s3
  obtain ⟨r1, r2, r3⟩ := kernel_exclude (c := c) ho { s with flag := false }
  change s1.color = s.color at r1
  change s1.flag = false at r2
  change ∀ v < g.n, s1.mask v = if s.mask v = 0 ∧ touches s.color c (g.adj v) = true then 2 else s.mask v at r3
  obtain ⟨p1, p2, p3⟩ := kernel_pickMin (c := c) ho s1
  change s2.mask = s1.mask at p1
  change ∀ v < g.n, s2.color v = if s1.mask v = 0 ∧ lowest g s1.mask (g.w v) (g.adj v) = true then c + 1 else s1.color v at p2
  have p3 : s2.flag = true ↔ ∃ v < g.n, s1.mask v = 0 ∧ lowest g s1.mask (g.w v) (g.adj v) = true := by
    refine p3.trans ?_
    rw [r2]; simp
  obtain ⟨q1, q2, q3⟩ := kernel_settle (c := c) ho s2
  change s3.color = s2.color at q1
  change s3.flag = s2.flag at q2
  change ∀ v < g.n, s3.mask v = if s2.mask v = 0 ∧ s2.color v = c + 1 then 1 else s2.mask v at q3
  have htop := hg.top
  have hc := h.small
  have down1 : ∀ v < g.n, s1.mask v = 0 → s.mask v = 0 := by
    intro v hv h0
    rw [r3 v hv] at h0
    split at h0
    · cases h0
    · exact h0
  have down : ∀ v < g.n, s3.mask v = 0 → s1.mask v = 0 := by
    intro v hv h0
    rw [q3 v hv] at h0
    split at h0
    · cases h0
    · rw [← p1]; exact h0
  have hfree : ∀ v < g.n, s1.mask v = 0 → s1.color v = g.top := by
    intro v hv h0
    have := down1 v hv h0
    rw [r1]
    rcases h.split v hv with e | e | e <;> omega
  have hno : ∀ v < g.n, s1.mask v = 0 → ∀ u ∈ g.adj v, s1.color u ≠ c + 1 := by
    intro v hv h0 u hu e
    have h0' := down1 v hv h0
    rw [r3 v hv, if_pos ⟨h0', (touches_iff _).2 ⟨u, hu, r1 ▸ e⟩⟩] at h0
    cases h0
  obtain ⟨e1, e2, e3⟩ := extend_color hg hc p2 hfree hno
  refine ⟨⟨?_, ?_, ?_, ?_, hc⟩, ?_, fun v hv h0 => down1 v hv (down v hv h0), ?_⟩
  · intro v hv
    have hm : s2.mask v = s1.mask v := congrFun p1 v
    have hs := h.split v hv
    have lift : ∀ u ∈ g.adj v, s.color u = c + 1 → s3.color u = c + 1 := by
      intro u hu e
      rw [q1, e3 u (hg.range v hv u hu) (by rw [r1]; omega), r1, e]
    rw [q3 v hv]
    rw [q1]
    have hcv := p2 v hv
    by_cases ht : s.mask v = 0 ∧ touches s.color c (g.adj v) = true
    · have hm1 : s1.mask v = 2 := by rw [r3 v hv, if_pos ht]
      rw [if_neg (fun a => by omega)] at hcv ⊢
      right; right
      obtain ⟨u, hu, e⟩ := (touches_iff _).1 ht.2
      refine ⟨hm.trans hm1, ?_, u, hu, q1 ▸ lift u hu e⟩
      rw [hcv, r1]
      rcases hs with e | e | e <;> omega
    · have hm1 : s1.mask v = s.mask v := by rw [r3 v hv, if_neg ht]
      rw [r1] at hcv
      rcases hs with e | e | e
      · split at hcv
        · right; left
          rw [if_pos ⟨by omega, hcv⟩]; omega
        · left
          rw [if_neg (fun a => by omega)]
          omega
      · right; left
        rw [if_neg (fun a => by omega)] at hcv ⊢
        omega
      · right; right
        rw [if_neg (fun a => by omega)] at hcv ⊢
        obtain ⟨_, _, u, hu, e'⟩ := e
        exact ⟨by omega, by omega, u, hu, q1 ▸ lift u hu e'⟩
  · intro j hj hjc
    obtain ⟨v, hv, hcv⟩ := h.used j hj hjc
    exact ⟨v, hv, by rw [q1, e3 v hv (by rw [r1]; omega), r1, hcv]⟩
  · intro hd
    rw [q1]
    exact e1 hd (r1 ▸ h.separate hd)
  · rw [q1]; exact e2 (r1 ▸ h.greedy)
  · intro hf
    obtain ⟨x, hx, x0, xm⟩ := p3.1 (q2 ▸ hf)
    refine free_lt (fun v hv h0 => down1 v hv (down v hv h0)) ⟨x, hx, down1 x hx x0, ?_⟩
    rw [q3 x hx, if_pos ⟨p1 ▸ x0, by rw [p2 x hx, if_pos ⟨x0, xm⟩]⟩]; decide
  · intro hf v hv h0
    have := p3.2 (exists_free_min hg ⟨v, hv, down v hv h0⟩)
    rw [← q2, hf] at this
    cases this

theorem expand_ok (hg : Ok g) (ho : Orders g order) : ∀ (fuel : Nat) (s : St), EInv g c s → free g s.mask < fuel →
    ∃ r, expand g order c fuel s = some r ∧ EInv g c r ∧ ∀ v < g.n, r.mask v ≠ 0 := by
  intro fuel
  induction fuel with
  | zero => intro s _ h; omega
  | succ fuel ih =>
    intro s h hf
    obtain ⟨t1, t2, _, t4⟩ := h.turn (order := order) hg ho
    unfold expand
    simp only
    split
    · next e =>
      have := t2 e
      exact ih _ t1 (by omega)
    · next e => exact ⟨_, rfl, t1, t4 (by simpa using e)⟩

omit [LinearOrder W] in
/-- At the end of a round the invariant of the outer loop holds with one more colour. -/
theorem EInv.close (h : EInv g c s) (hg : Ok g) (ho : Orders g order) (hn : ∀ v < g.n, s.mask v ≠ 0) {mask0 : Nat → Nat}
    (h0 : ∀ v < g.n, s.color v = g.top → mask0 v = 0) (hx : ∃ v < g.n, mask0 v = 0 ∧ s.color v ≠ g.top)
    (hroom : c + free g mask0 ≤ g.n) :
    MInv g (c + 1) (kernel order release s) ∧ free g (kernel order release s).mask < free g mask0 := by
  obtain ⟨q1, q3⟩ := kernel_release ho s
  have htop := hg.top
  have hc := h.small
  have sp : ∀ v < g.n, ((kernel order release s).mask v = 0 ∧ s.color v = g.top) ∨
      ((kernel order release s).mask v = 1 ∧ 1 ≤ s.color v ∧ s.color v ≤ c + 1) := by
    intro v hv
    rw [q3 v hv]
    rcases h.split v hv with e | e | e
    · exact absurd e.1 (hn v hv)
    · right; rw [if_neg (by omega)]; exact e
    · left; rw [if_pos e.1]; exact ⟨rfl, e.2.1⟩
  have hlt : free g (kernel order release s).mask < free g mask0 := by
    refine free_lt ?_ ?_
    · intro v hv e
      rcases sp v hv with a | a
      · exact h0 v hv a.2
      · omega
    · obtain ⟨v, hv, a, b⟩ := hx
      refine ⟨v, hv, a, fun e => ?_⟩
      rcases sp v hv with a | a
      · exact b a.2
      · omega
  refine ⟨⟨by rw [q1]; exact sp, by rw [q1]; exact h.used, by rw [q1]; exact h.separate, ?_, by omega⟩, hlt⟩
  rw [q1]
  intro v hv j hj hjc hv'
  by_cases e : j = c + 1
  · rcases h.split v hv with a | a | a
    · exact absurd a.1 (hn v hv)
    · omega
    · exact e ▸ a.2.2
  · exact h.greedy v hv j hj (by omega) hv'

theorem expand_color (hg : Ok g) (ho : Orders g order) : ∀ (fuel : Nat) (s r : St), EInv g c s →
    expand g order c fuel s = some r → ∀ v < g.n, s.color v ≠ g.top → r.color v = s.color v := by
  intro fuel
  induction fuel with
  | zero => intro s r _ h; cases h
  | succ fuel ih =>
    intro s r h hr v hv hc
    obtain ⟨t1, -, -, -⟩ := h.turn (order := order) hg ho
    obtain ⟨r1, -, r3⟩ := kernel_exclude (c := c) ho { s with flag := false }
    obtain ⟨-, p2, -⟩ := kernel_pickMin (c := c) ho (kernel order (exclude g c) { s with flag := false })
    obtain ⟨q1, -, -⟩ := kernel_settle (c := c) ho
      (kernel order (pickMin g c) (kernel order (exclude g c) { s with flag := false }))
    have keep : (kernel order (settle c)
      (kernel order (pickMin g c) (kernel order (exclude g c) { s with flag := false }))).color v = s.color v := by
      rw [q1, p2 v hv, r1, if_neg]
      intro e
      have e := e.1
      rw [r3 v hv] at e
      split at e
      · cases e
      · change s.mask v = 0 at e
        rcases h.split v hv with a | a | a
        · exact hc a.2
        · omega
        · omega
    unfold expand at hr
    simp only at hr
    split at hr
    · rw [ih _ _ t1 hr v hv (by rw [keep]; exact hc), keep]
    · cases hr; exact keep

structure MGood (g : Graph W) (s : St) (k : Nat) : Prop extends Good g s k where
  greedy : ∀ v < g.n, ∀ j, 1 ≤ j → j < s.color v → ∃ u ∈ g.adj v, s.color u = j

theorem maxLoop_good (hg : Ok g) (ho : Orders g order) (inner : Nat) (hin : g.n < inner) :
    ∀ (fuel c : Nat) (s : St), MInv g c s → free g s.mask < fuel →
    ∃ r, maxLoop g order inner fuel c s = some r ∧ MGood g r.1 r.2 := by
  intro fuel
  induction fuel with
  | zero => intro c s _ h; omega
  | succ fuel ih =>
    intro c s h hf
    obtain ⟨f1, f2⟩ := h.first (order := order) hg ho
    have htop := hg.top
    have hroom := h.room
    unfold maxLoop
    simp only
    split
    · next e =>
      obtain ⟨_, a2, a3⟩ := f1 e
      have sp : ∀ v < g.n, s.mask v = 1 ∧ 1 ≤ s.color v ∧ s.color v ≤ c :=
        fun v hv => (h.split v hv).resolve_left fun e => a3 v hv e.1
      refine ⟨_, rfl, ⟨⟨?_, ?_, ?_⟩, ?_⟩⟩
      · intro v hv; have := sp v hv; have := a2 v hv; simp only; omega
      · intro j h1 h2
        obtain ⟨v, hv, e⟩ := h.used j h1 h2
        exact ⟨v, hv, (a2 v hv).trans e⟩
      · intro hd v hv u hu hne hcv hcu
        simp only at hcv hcu ⊢
        rw [a2 v hv] at hcv ⊢
        rw [a2 u (hg.range v hv u hu)] at hcu ⊢
        exact h.separate hd v hv u hu hne hcv hcu
      · intro v hv j h1 h2
        simp only at h2 ⊢
        rw [a2 v hv] at h2
        have := sp v hv
        obtain ⟨u, hu, e⟩ := h.greedy v hv j h1 (by omega) (.inr h2)
        exact ⟨u, hu, (a2 u (hg.range v hv u hu)).trans e⟩
    · next e =>
      obtain ⟨b1, b2⟩ := f2 (by simpa using e)
      obtain ⟨r, hr, r1, r2⟩ := expand_ok (order := order) hg ho inner _ b1 (by omega)
      have kc := expand_color hg ho inner _ _ b1 hr
      rw [hr]
      simp only
      -- the rows coloured before this round keep their colour
      obtain ⟨p1, p2, p3⟩ := kernel_pickMin (c := c) ho { s with flag := false }
      obtain ⟨q1, -, -⟩ := kernel_settle (c := c) ho (kernel order (pickMin g c) { s with flag := false })
      have old : ∀ v < g.n, s.color v ≠ g.top → r.color v = s.color v := by
        intro v hv hc
        have : (kernel order (settle c) (kernel order (pickMin g c) { s with flag := false })).color v = s.color v := by
          rw [q1, p2 v hv, if_neg]
          intro a
          have a : s.mask v = 0 := a.1
          rcases h.split v hv with b | b
          · exact hc b.2
          · omega
        rw [kc v hv (by rw [this]; exact hc), this]
      have fl := p3.1 (by simpa using e)
      obtain ⟨x, hx, x0, xm⟩ := fl.resolve_left (by simp)
      have cx : (kernel order (settle c) (kernel order (pickMin g c) { s with flag := false })).color x = c + 1 := by
        rw [q1, p2 x hx, if_pos ⟨x0, xm⟩]
      have b3 := b1.small
      obtain ⟨c1, c2⟩ := r1.close (order := order) hg ho r2 (mask0 := s.mask)
        (by
          intro v hv a
          rcases h.split v hv with b | b
          · exact b.1
          · have := old v hv (by omega); omega)
        ⟨x, hx, x0, by rw [kc x hx (by omega)]; omega⟩ hroom
      exact ih _ _ c1 (by omega)

/-! ## The order in which the rows are visited does not matter -/

/-- The same colours, masks and flags. -/
structure Same (g : Graph W) (s t : St) : Prop where
  color : ∀ v < g.n, s.color v = t.color v
  mask : ∀ v < g.n, s.mask v = t.mask v
  flag : s.flag = t.flag
  flag' : s.flag' = t.flag'

variable {order' : Nat → List Nat} {t : St}

theorem isMax_congr (hg : Ok g) {m m' : Nat → Nat} (h : ∀ v < g.n, m v = m' v) {v : Nat} (hv : v < g.n) :
    isMax g m v = isMax g m' v := by
  rw [Bool.eq_iff_iff, isMax_iff, isMax_iff]
  exact ⟨fun a k hk e => a k hk ((h k (hg.range v hv k hk)).trans e),
    fun a k hk e => a k hk ((h k (hg.range v hv k hk)).symm.trans e)⟩

theorem isMin_congr (hg : Ok g) {m m' : Nat → Nat} (h : ∀ v < g.n, m v = m' v) {v : Nat} (hv : v < g.n) :
    isMin g m v = isMin g m' v := by
  rw [Bool.eq_iff_iff, isMin_iff, isMin_iff]
  exact ⟨fun a k hk e => a k hk ((h k (hg.range v hv k hk)).trans e),
    fun a k hk e => a k hk ((h k (hg.range v hv k hk)).symm.trans e)⟩

theorem lowest_congr (hg : Ok g) {m m' : Nat → Nat} (h : ∀ v < g.n, m v = m' v) {v : Nat} (hv : v < g.n) :
    lowest g m (g.w v) (g.adj v) = lowest g m' (g.w v) (g.adj v) := by
  rw [Bool.eq_iff_iff, lowest_iff, lowest_iff]
  exact ⟨fun a k hk e => a k hk ((h k (hg.range v hv k hk)).trans e),
    fun a k hk e => a k hk ((h k (hg.range v hv k hk)).symm.trans e)⟩

omit [LinearOrder W] in
theorem touches_congr (hg : Ok g) {m m' : Nat → Nat} (h : ∀ v < g.n, m v = m' v) {v : Nat} (hv : v < g.n) :
    touches m c (g.adj v) = touches m' c (g.adj v) := by
  rw [Bool.eq_iff_iff, touches_iff, touches_iff]
  exact ⟨fun ⟨k, hk, e⟩ => ⟨k, hk, (h k (hg.range v hv k hk)).symm.trans e⟩,
    fun ⟨k, hk, e⟩ => ⟨k, hk, (h k (hg.range v hv k hk)).trans e⟩⟩

theorem Same.pick (h : Same g s t) (hg : Ok g) (ho : Orders g order) (ho' : Orders g order') :
    Same g (kernel order (pick g c) s) (kernel order' (pick g c) t) := by
  obtain ⟨a1, a2, a3, a4⟩ := kernel_pick (c := c) ho s
  obtain ⟨b1, b2, b3, b4⟩ := kernel_pick (c := c) ho' t
  refine ⟨?_, ?_, ?_, ?_⟩
  · intro v hv
    rw [a2 v hv, b2 v hv, h.mask v hv, isMax_congr hg h.mask hv, isMin_congr hg h.mask hv, h.color v hv]
  · intro v hv; rw [a1, b1, h.mask v hv]
  · rw [Bool.eq_iff_iff, a3, b3, h.flag]
    refine or_congr_right (exists_congr fun v => and_congr_right fun hv => ?_)
    rw [h.mask v hv, isMax_congr hg h.mask hv]
  · rw [Bool.eq_iff_iff, a4, b4, h.flag']
    refine or_congr_right (exists_congr fun v => and_congr_right fun hv => ?_)
    rw [h.mask v hv, isMax_congr hg h.mask hv, isMin_congr hg h.mask hv]

theorem fastLoop_same (hg : Ok g) (ho : Orders g order) (ho' : Orders g order') : ∀ (fuel c : Nat) (s t : St)
    (r r' : St × Nat), (∀ v < g.n, s.color v = t.color v) → (∀ v < g.n, s.mask v = t.mask v) →
    fastLoop g order fuel c s = some r → fastLoop g order' fuel c t = some r' →
    r.2 = r'.2 ∧ ∀ v < g.n, r.1.color v = r'.1.color v := by
  intro fuel
  induction fuel with
  | zero => intro c s t r r' _ _ h; cases h
  | succ fuel ih =>
    intro c s t r r' hc hm h h'
    have hp : Same g (kernel order (Coloring.pick g c) { s with flag := false, flag' := false })
        (kernel order' (Coloring.pick g c) { t with flag := false, flag' := false }) :=
      Same.pick ⟨hc, hm, rfl, rfl⟩ hg ho ho'
    unfold fastLoop at h h'
    simp only at h h'
    rw [← hp.flag, ← hp.flag'] at h'
    split at h
    · next e =>
      rw [if_pos e] at h'
      cases h; cases h'
      exact ⟨rfl, hp.color⟩
    · next e =>
      rw [if_neg e] at h'
      split at h
      · next e' =>
        rw [if_pos e'] at h'
        cases h; cases h'
        exact ⟨rfl, hp.color⟩
      · next e' =>
        rw [if_neg e'] at h'
        refine ih _ _ _ _ _ ?_ ?_ h h'
        · rw [(kernel_settle2 ho _).1, (kernel_settle2 ho' _).1]; exact hp.color
        · intro v hv
          rw [(kernel_settle2 ho _).2 v hv, (kernel_settle2 ho' _).2 v hv, hp.color v hv, hp.mask v hv]

/-- The same colours, masks and first flag. -/
structure Same' (g : Graph W) (s t : St) : Prop where
  color : ∀ v < g.n, s.color v = t.color v
  mask : ∀ v < g.n, s.mask v = t.mask v
  flag : s.flag = t.flag

theorem Same'.pickMin (h : Same' g s t) (hg : Ok g) (ho : Orders g order) (ho' : Orders g order') :
    Same' g (kernel order (pickMin g c) s) (kernel order' (pickMin g c) t) := by
  obtain ⟨a1, a2, a3⟩ := kernel_pickMin (c := c) ho s
  obtain ⟨b1, b2, b3⟩ := kernel_pickMin (c := c) ho' t
  refine ⟨?_, ?_, ?_⟩
  · intro v hv
    rw [a2 v hv, b2 v hv, h.mask v hv, lowest_congr hg h.mask hv, h.color v hv]
  · intro v hv; rw [a1, b1, h.mask v hv]
  · rw [Bool.eq_iff_iff, a3, b3, h.flag]
    refine or_congr_right (exists_congr fun v => and_congr_right fun hv => ?_)
    rw [h.mask v hv, lowest_congr hg h.mask hv]

omit [LinearOrder W] in
theorem Same'.settle (h : Same' g s t) (ho : Orders g order) (ho' : Orders g order') :
    Same' g (kernel order (settle c) s) (kernel order' (settle c) t) := by
  obtain ⟨a1, a2, a3⟩ := kernel_settle (c := c) ho s
  obtain ⟨b1, b2, b3⟩ := kernel_settle (c := c) ho' t
  refine ⟨by rw [a1, b1]; exact h.color, ?_, by rw [a2, b2]; exact h.flag⟩
  intro v hv
  rw [a3 v hv, b3 v hv, h.color v hv, h.mask v hv]

omit [LinearOrder W] in
theorem Same'.release (h : Same' g s t) (ho : Orders g order) (ho' : Orders g order') :
    (∀ v < g.n, (kernel order Coloring.release s).color v = (kernel order' Coloring.release t).color v) ∧
    (∀ v < g.n, (kernel order Coloring.release s).mask v = (kernel order' Coloring.release t).mask v) := by
  obtain ⟨a1, a2⟩ := kernel_release ho s
  obtain ⟨b1, b2⟩ := kernel_release ho' t
  refine ⟨by rw [a1, b1]; exact h.color, ?_⟩
  intro v hv
  rw [a2 v hv, b2 v hv, h.mask v hv]

omit [LinearOrder W] in
theorem Same'.exclude (h : Same' g s t) (hg : Ok g) (ho : Orders g order) (ho' : Orders g order') :
    Same' g (kernel order (exclude g c) s) (kernel order' (exclude g c) t) := by
  obtain ⟨a1, a2, a3⟩ := kernel_exclude (c := c) ho s
  obtain ⟨b1, b2, b3⟩ := kernel_exclude (c := c) ho' t
  refine ⟨by rw [a1, b1]; exact h.color, ?_, by rw [a2, b2]; exact h.flag⟩
  intro v hv
  rw [a3 v hv, b3 v hv, touches_congr hg h.color hv, h.mask v hv]

theorem expand_same (hg : Ok g) (ho : Orders g order) (ho' : Orders g order') : ∀ (fuel : Nat) (s t r r' : St),
    (∀ v < g.n, s.color v = t.color v) → (∀ v < g.n, s.mask v = t.mask v) →
    expand g order c fuel s = some r → expand g order' c fuel t = some r' → Same' g r r' := by
  intro fuel
  induction fuel with
  | zero => intro s t r r' _ _ h; cases h
  | succ fuel ih =>
    intro s t r r' hc hm h h'
    have a : Same' g { s with flag := false } { t with flag := false } := ⟨hc, hm, rfl⟩
    have b := ((a.exclude (c := c) hg ho ho').pickMin (c := c) hg ho ho').settle (c := c) ho ho'
    unfold expand at h h'
    simp only at h h'
    rw [← b.flag] at h'
    split at h
    · next e =>
      rw [if_pos e] at h'
      exact ih _ _ _ _ b.color b.mask h h'
    · next e =>
      rw [if_neg e] at h'
      cases h; cases h'
      exact b

theorem maxLoop_same (hg : Ok g) (ho : Orders g order) (ho' : Orders g order') (inner : Nat) : ∀ (fuel c : Nat) (s t : St)
    (r r' : St × Nat), (∀ v < g.n, s.color v = t.color v) → (∀ v < g.n, s.mask v = t.mask v) →
    maxLoop g order inner fuel c s = some r → maxLoop g order' inner fuel c t = some r' →
    r.2 = r'.2 ∧ ∀ v < g.n, r.1.color v = r'.1.color v := by
  intro fuel
  induction fuel with
  | zero => intro c s t r r' _ _ h; cases h
  | succ fuel ih =>
    intro c s t r r' hc hm h h'
    have a : Same' g { s with flag := false } { t with flag := false } := ⟨hc, hm, rfl⟩
    have b := a.pickMin (c := c) hg ho ho'
    have d := b.settle (c := c) ho ho'
    unfold maxLoop at h h'
    simp only at h h'
    rw [← b.flag] at h'
    split at h
    · next e =>
      rw [if_pos e] at h'
      cases h; cases h'
      exact ⟨rfl, b.color⟩
    · next e =>
      rw [if_neg e] at h'
      split at h
      · cases h
      · next x hx =>
        split at h'
        · cases h'
        · next y hy =>
          have f := expand_same hg ho ho' inner _ _ _ _ d.color d.mask hx hy
          exact ih _ _ _ _ _ (f.release ho ho').1 (f.release ho ho').2 h h'

end Verif.Coloring
