import Verif.Model.Coloring
import Mathlib.Order.Basic
import Mathlib.Order.OrderDual

/-!
Helper lemmas for `Coloring`.
-/
namespace Verif.Coloring

variable {W : Type} [LinearOrder W] {g : Graph W} {order : Nat → List Nat} {s : St} {c : Nat}

theorem upd_same {α : Type} (f : Nat → α) (i : Nat) (x : α) : upd f i x i = x := by simp [upd]

theorem upd_ne {α : Type} (f : Nat → α) {i j : Nat} (x : α) (h : j ≠ i) : upd f i x j = f j := by simp [upd, h]

/-! ## Extremal rows -/

def isMax (g : Graph W) (mask : Nat → Nat) (v : Nat) : Bool := (extrema g mask (g.w v) (g.adj v) (true, true)).1
def isMin (g : Graph W) (mask : Nat → Nat) (v : Nat) : Bool := (extrema g mask (g.w v) (g.adj v) (true, true)).2

theorem extrema_fst {mask : Nat → Nat} {w : W} : ∀ (l : List Nat) (r : Bool × Bool),
    (extrema g mask w l r).1 = true ↔ r.1 = true ∧ ∀ k ∈ l, mask k = 0 → ¬ w < g.w k := by
  intro l
  induction l with
  | nil => intro r; simp [extrema]
  | cons k l ih =>
    intro r
    rw [extrema, ih]
    by_cases h : mask k = 0
    · by_cases h2 : w < g.w k <;> simp [h, h2, -not_lt]
    · simp [h]

theorem extrema_snd {mask : Nat → Nat} {w : W} : ∀ (l : List Nat) (r : Bool × Bool),
    (extrema g mask w l r).2 = true ↔ r.2 = true ∧ ∀ k ∈ l, mask k = 0 → ¬ g.w k < w := by
  intro l
  induction l with
  | nil => intro r; simp [extrema]
  | cons k l ih =>
    intro r
    rw [extrema, ih]
    by_cases h : mask k = 0
    · by_cases h2 : g.w k < w <;> simp [h, h2, -not_lt]
    · simp [h]

theorem isMax_iff {mask : Nat → Nat} {v : Nat} :
    isMax g mask v = true ↔ ∀ k ∈ g.adj v, mask k = 0 → ¬ g.w v < g.w k := by
  unfold isMax; rw [extrema_fst]; simp

theorem isMin_iff {mask : Nat → Nat} {v : Nat} :
    isMin g mask v = true ↔ ∀ k ∈ g.adj v, mask k = 0 → ¬ g.w k < g.w v := by
  unfold isMin; rw [extrema_snd]; simp

theorem lowest_iff {mask : Nat → Nat} {w : W} : ∀ (l : List Nat),
    lowest g mask w l = true ↔ ∀ k ∈ l, mask k = 0 → ¬ g.w k < w := by
  intro l
  induction l with
  | nil => simp [lowest]
  | cons k l ih =>
    unfold lowest
    by_cases h : mask k = 0
    · by_cases h2 : g.w k < w
      · simp [h, h2, -not_lt]
      · simp only [h, if_true, if_neg h2, ih, List.mem_cons, forall_eq_or_imp]
        exact ⟨fun x => ⟨fun _ => h2, x⟩, fun x => x.2⟩
    · simp [h, ih]

theorem touches_iff {color : Nat → Nat} : ∀ (l : List Nat), touches color c l = true ↔ ∃ k ∈ l, color k = c + 1 := by
  intro l
  induction l with
  | nil => simp [touches]
  | cons k l ih =>
    unfold touches
    by_cases h : color k = c + 1
    · simp [h]
    · simp [h, ih]

theorem exists_min (w : Nat → W) (P : Nat → Prop) : ∀ (l : List Nat), (∃ v ∈ l, P v) →
    ∃ v ∈ l, P v ∧ ∀ u ∈ l, P u → ¬ w u < w v := by
  intro l
  induction l with
  | nil => rintro ⟨v, hv, _⟩; exact absurd hv List.not_mem_nil
  | cons x l ih =>
    intro h
    by_cases hl : ∃ v ∈ l, P v
    · obtain ⟨v, hv, hp, hm⟩ := ih hl
      by_cases hx : P x ∧ w x < w v
      · refine ⟨x, List.mem_cons_self, hx.1, ?_⟩
        intro u hu hpu hlt
        rcases List.mem_cons.1 hu with rfl | hu
        · exact lt_irrefl _ hlt
        · exact hm u hu hpu (lt_trans hlt hx.2)
      · refine ⟨v, List.mem_cons_of_mem _ hv, hp, ?_⟩
        intro u hu hpu
        rcases List.mem_cons.1 hu with rfl | hu
        · exact fun e => hx ⟨hpu, e⟩
        · exact hm u hu hpu
    · obtain ⟨v, hv, hp⟩ := h
      rcases List.mem_cons.1 hv with rfl | hv
      · refine ⟨v, List.mem_cons_self, hp, ?_⟩
        intro u hu hpu
        rcases List.mem_cons.1 hu with rfl | hu
        · exact lt_irrefl _
        · exact absurd ⟨u, hu, hpu⟩ hl
      · exact absurd ⟨v, hv, hp⟩ hl

theorem exists_max (w : Nat → W) (P : Nat → Prop) (l : List Nat) (h : ∃ v ∈ l, P v) :
    ∃ v ∈ l, P v ∧ ∀ u ∈ l, P u → ¬ w v < w u :=
  exists_min (W := OrderDual W) w P l h

/-! ## One parallel loop -/

/-- Every loop visits every row once. -/
def Orders (g : Graph W) (order : Nat → List Nat) : Prop := ∀ k, (order k).Perm (List.range g.n)

omit [LinearOrder W] in
theorem Orders.mem (h : Orders g order) {k v : Nat} : v ∈ order k ↔ v < g.n := by
  rw [(h k).mem_iff, List.mem_range]

omit [LinearOrder W] in
theorem Orders.nodup (h : Orders g order) (k : Nat) : (order k).Nodup := (h k).nodup_iff.2 List.nodup_range

/-- A loop over the rows whose bodies change only their own row, and whose effect on a row depends on
the data `key` that no body changes. -/
theorem fold_rows {α β γ : Type} (body : St → Nat → St) (key : St → β) (cell : St → Nat → α) (f : β → Nat → α → α)
    (flag : St → Bool) (raise : β → Nat → Bool) (other : St → γ)
    (hkey : ∀ s v, key (body s v) = key s)
    (hother : ∀ s v, other (body s v) = other s)
    (hcell : ∀ s v, cell (body s v) v = f (key s) v (cell s v))
    (hrest : ∀ s v u, u ≠ v → cell (body s v) u = cell s u)
    (hflag : ∀ s v, flag (body s v) = (flag s || raise (key s) v)) :
    ∀ (l : List Nat) (s : St), l.Nodup →
      key (l.foldl body s) = key s ∧ other (l.foldl body s) = other s ∧
      (∀ v ∈ l, cell (l.foldl body s) v = f (key s) v (cell s v)) ∧
      (∀ v, v ∉ l → cell (l.foldl body s) v = cell s v) ∧
      (flag (l.foldl body s) = true ↔ flag s = true ∨ ∃ v ∈ l, raise (key s) v = true) := by
  intro l
  induction l with
  | nil => intro s _; simp
  | cons x l ih =>
    intro s hnd
    obtain ⟨hx, hl⟩ := List.nodup_cons.1 hnd
    obtain ⟨h1, h2, h3, h4, h5⟩ := ih (body s x) hl
    rw [List.foldl_cons]
    refine ⟨h1.trans (hkey s x), h2.trans (hother s x), ?_, ?_, ?_⟩
    · intro v hv
      rcases List.mem_cons.1 hv with rfl | hv
      · rw [h4 v hx, hcell]
      · have hne : v ≠ x := fun e => hx (e ▸ hv)
        rw [h3 v hv, hkey, hrest s x v hne]
    · intro v hv
      have hne : v ≠ x := fun e => hv (e ▸ List.mem_cons_self)
      rw [h4 v fun h => hv (List.mem_cons_of_mem _ h), hrest s x v hne]
    · rw [h5, hflag, hkey]
      simp only [Bool.or_eq_true, List.mem_cons, exists_eq_or_imp, or_assoc]

theorem kernel_pick (ho : Orders g order) (s : St) :
    (kernel order (pick g c) s).mask = s.mask ∧
    (∀ v < g.n, (kernel order (pick g c) s).color v =
      if s.mask v = 0 then (if isMax g s.mask v then c + 1 else if isMin g s.mask v then c + 2 else s.color v)
      else s.color v) ∧
    ((kernel order (pick g c) s).flag = true ↔ s.flag = true ∨ ∃ v < g.n, s.mask v = 0 ∧ isMax g s.mask v = true) ∧
    ((kernel order (pick g c) s).flag' = true ↔
      s.flag' = true ∨ ∃ v < g.n, s.mask v = 0 ∧ isMax g s.mask v = false ∧ isMin g s.mask v = true) := by
  have body : ∀ s v, pick g c s v = if s.mask v ≠ 0 then s else
      if isMax g s.mask v then { s with color := upd s.color v (c + 1), flag := true }
      else if isMin g s.mask v then { s with color := upd s.color v (c + 2), flag' := true } else s := fun _ _ => rfl
  have A := fold_rows (pick g c) St.mask St.color
    (fun mask v x => if mask v = 0 then (if isMax g mask v then c + 1 else if isMin g mask v then c + 2 else x) else x)
    St.flag (fun mask v => mask v == 0 && isMax g mask v) (fun _ => ())
    (by intro s v; rw [body]; split; rfl; split; rfl; split <;> rfl) (fun _ _ => rfl)
    (by
      intro s v; rw [body]
      by_cases h : s.mask v = 0
      · simp only [h, ne_eq, not_true_eq_false, if_false, if_true]
        split
        · exact upd_same _ _ _
        · split
          · exact upd_same _ _ _
          · rfl
      · simp [h])
    (by
      intro s v u hu; rw [body]
      split; rfl; split; exact upd_ne _ _ hu; split; exact upd_ne _ _ hu; rfl)
    (by
      intro s v; rw [body]
      by_cases h : s.mask v = 0
      · simp only [h, ne_eq, not_true_eq_false, if_false, beq_self_eq_true, Bool.true_and]
        split
        · next e => simp [e]
        · next e => split <;> simp [e]
      · simp [h])
    (order s.tick) s (ho.nodup _)
  have B := fold_rows (pick g c) St.mask (fun _ _ => ()) (fun _ _ x => x)
    St.flag' (fun mask v => mask v == 0 && (!isMax g mask v && isMin g mask v)) (fun _ => ())
    (by intro s v; rw [body]; split; rfl; split; rfl; split <;> rfl) (fun _ _ => rfl) (fun _ _ => rfl)
    (fun _ _ _ _ => rfl)
    (by
      intro s v; rw [body]
      by_cases h : s.mask v = 0
      · simp only [h, ne_eq, not_true_eq_false, if_false, beq_self_eq_true, Bool.true_and]
        split
        · next e => simp [e]
        · next e => split <;> simp [*]
      · simp [h])
    (order s.tick) s (ho.nodup _)
  refine ⟨A.1, fun v hv => A.2.2.1 v (ho.mem.2 hv), ?_, ?_⟩
  · refine A.2.2.2.2.trans ?_
    simp only [ho.mem, Bool.and_eq_true, beq_iff_eq]
  · refine B.2.2.2.2.trans ?_
    simp only [ho.mem, Bool.and_eq_true, beq_iff_eq, Bool.not_eq_true']

omit [LinearOrder W] in
theorem kernel_settle2 (ho : Orders g order) (s : St) :
    (kernel order (settle2 c) s).color = s.color ∧
    (∀ v < g.n, (kernel order (settle2 c) s).mask v =
      if s.mask v = 0 ∧ (s.color v = c + 1 ∨ s.color v = c + 2) then 1 else s.mask v) := by
  have A := fold_rows (settle2 c) St.color St.mask
    (fun color v x => if x = 0 ∧ (color v = c + 1 ∨ color v = c + 2) then 1 else x)
    (fun _ => false) (fun _ _ => false) (fun _ => ())
    (by intro s v; unfold settle2; split; rfl; split <;> rfl) (fun _ _ => rfl)
    (by
      intro s v; unfold settle2
      by_cases h : s.mask v = 0
      · simp only [h, ne_eq, not_true_eq_false, if_false, true_and]
        split
        · exact upd_same _ _ _
        · exact h
      · simp [h])
    (by
      intro s v u hu; unfold settle2
      split; rfl; split; exact upd_ne _ _ hu; rfl)
    (by intro s v; rfl)
    (order s.tick) s (ho.nodup _)
  exact ⟨A.1, fun v hv => A.2.2.1 v (ho.mem.2 hv)⟩

theorem kernel_pickMin (ho : Orders g order) (s : St) :
    (kernel order (pickMin g c) s).mask = s.mask ∧
    (∀ v < g.n, (kernel order (pickMin g c) s).color v =
      if s.mask v = 0 ∧ lowest g s.mask (g.w v) (g.adj v) = true then c + 1 else s.color v) ∧
    ((kernel order (pickMin g c) s).flag = true ↔
      s.flag = true ∨ ∃ v < g.n, s.mask v = 0 ∧ lowest g s.mask (g.w v) (g.adj v) = true) := by
  have A := fold_rows (pickMin g c) St.mask St.color
    (fun mask v x => if mask v = 0 ∧ lowest g mask (g.w v) (g.adj v) = true then c + 1 else x)
    St.flag (fun mask v => mask v == 0 && lowest g mask (g.w v) (g.adj v)) (fun _ => ())
    (by intro s v; unfold pickMin; split; rfl; split <;> rfl) (fun _ _ => rfl)
    (by
      intro s v; unfold pickMin
      by_cases h : s.mask v = 0
      · simp only [h, ne_eq, not_true_eq_false, if_false, true_and]
        split
        · exact upd_same _ _ _
        · rfl
      · simp [h])
    (by
      intro s v u hu; unfold pickMin
      split; rfl; split; exact upd_ne _ _ hu; rfl)
    (by
      intro s v; unfold pickMin
      by_cases h : s.mask v = 0
      · simp only [h, ne_eq, not_true_eq_false, if_false, beq_self_eq_true, Bool.true_and]
        split
        · next e => simp [e]
        · next e => simp [e]
      · simp [h])
    (order s.tick) s (ho.nodup _)
  refine ⟨A.1, fun v hv => A.2.2.1 v (ho.mem.2 hv), ?_⟩
  refine A.2.2.2.2.trans ?_
  simp only [ho.mem, Bool.and_eq_true, beq_iff_eq]

omit [LinearOrder W] in
theorem kernel_settle (ho : Orders g order) (s : St) :
    (kernel order (settle c) s).color = s.color ∧ (kernel order (settle c) s).flag = s.flag ∧
    (∀ v < g.n, (kernel order (settle c) s).mask v = if s.mask v = 0 ∧ s.color v = c + 1 then 1 else s.mask v) := by
  have A := fold_rows (settle c) St.color St.mask
    (fun color v x => if x = 0 ∧ color v = c + 1 then 1 else x)
    (fun _ => false) (fun _ _ => false) St.flag
    (by intro s v; unfold settle; split; rfl; split <;> rfl)
    (by intro s v; unfold settle; split; rfl; split <;> rfl)
    (by
      intro s v; unfold settle
      by_cases h : s.mask v = 0
      · simp only [h, ne_eq, not_true_eq_false, if_false, true_and]
        split
        · exact upd_same _ _ _
        · exact h
      · simp [h])
    (by
      intro s v u hu; unfold settle
      split; rfl; split; exact upd_ne _ _ hu; rfl)
    (by intro s v; rfl)
    (order s.tick) s (ho.nodup _)
  exact ⟨A.1, A.2.1, fun v hv => A.2.2.1 v (ho.mem.2 hv)⟩

omit [LinearOrder W] in
theorem kernel_exclude (ho : Orders g order) (s : St) :
    (kernel order (exclude g c) s).color = s.color ∧ (kernel order (exclude g c) s).flag = s.flag ∧
    (∀ v < g.n, (kernel order (exclude g c) s).mask v =
      if s.mask v = 0 ∧ touches s.color c (g.adj v) = true then 2 else s.mask v) := by
  have A := fold_rows (exclude g c) St.color St.mask
    (fun color v x => if x = 0 ∧ touches color c (g.adj v) = true then 2 else x)
    (fun _ => false) (fun _ _ => false) St.flag
    (by intro s v; unfold exclude; split; rfl; split <;> rfl)
    (by intro s v; unfold exclude; split; rfl; split <;> rfl)
    (by
      intro s v; unfold exclude
      by_cases h : s.mask v = 0
      · simp only [h, ne_eq, not_true_eq_false, if_false, true_and]
        split
        · exact upd_same _ _ _
        · exact h
      · simp [h])
    (by
      intro s v u hu; unfold exclude
      split; rfl; split; exact upd_ne _ _ hu; rfl)
    (by intro s v; rfl)
    (order s.tick) s (ho.nodup _)
  exact ⟨A.1, A.2.1, fun v hv => A.2.2.1 v (ho.mem.2 hv)⟩

omit [LinearOrder W] in
theorem kernel_release (ho : Orders g order) (s : St) :
    (kernel order release s).color = s.color ∧
    (∀ v < g.n, (kernel order release s).mask v = if s.mask v = 2 then 0 else s.mask v) := by
  have A := fold_rows release St.color St.mask (fun _ _ x => if x = 2 then 0 else x)
    (fun _ => false) (fun _ _ => false) (fun _ => ())
    (by intro s v; unfold release; split <;> rfl) (fun _ _ => rfl)
    (by
      intro s v; unfold release
      split
      · next e => simp [upd_same]
      · next e => simp)
    (by
      intro s v u hu; unfold release
      split; exact upd_ne _ _ hu; rfl)
    (by intro s v; rfl)
    (order s.tick) s (ho.nodup _)
  exact ⟨A.1, fun v hv => A.2.2.1 v (ho.mem.2 hv)⟩

/-! ## Counting free rows -/

/-- The number of rows whose mask is zero. -/
def free (g : Graph W) (mask : Nat → Nat) : Nat := ((List.range g.n).filter fun v => mask v == 0).length

theorem filter_length_lt {p q : Nat → Bool} : ∀ (l : List Nat), (∀ v ∈ l, q v = true → p v = true) →
    (∃ v ∈ l, p v = true ∧ q v = false) → (l.filter q).length < (l.filter p).length := by
  have le : ∀ (l : List Nat), (∀ v ∈ l, q v = true → p v = true) → (l.filter q).length ≤ (l.filter p).length := by
    intro l
    induction l with
    | nil => intro _; simp
    | cons x l ih =>
      intro h
      have := ih fun v hv => h v (List.mem_cons_of_mem _ hv)
      have hx := h x List.mem_cons_self
      rw [List.filter_cons, List.filter_cons]
      by_cases hq : q x = true
      · simp [hq, hx hq, this]
      · by_cases hp : p x = true
        · simp [hq, hp]; omega
        · simp [hq, hp, this]
  intro l
  induction l with
  | nil => rintro _ ⟨v, hv, _⟩; exact absurd hv List.not_mem_nil
  | cons x l ih =>
    rintro h ⟨v, hv, h1, h2⟩
    have hl := fun v hv => h v (List.mem_cons_of_mem x hv)
    have hx := h x List.mem_cons_self
    rw [List.filter_cons, List.filter_cons]
    rcases List.mem_cons.1 hv with rfl | hv
    · have := le l hl
      simp [h1, h2]; omega
    · have := ih hl ⟨v, hv, h1, h2⟩
      by_cases hq : q x = true
      · simp [hq, hx hq, this]
      · by_cases hp : p x = true
        · simp [hq, hp]; omega
        · simp [hq, hp, this]

omit [LinearOrder W] in
theorem free_lt {mask mask' : Nat → Nat} (h : ∀ v < g.n, mask' v = 0 → mask v = 0)
    (hx : ∃ v < g.n, mask v = 0 ∧ mask' v ≠ 0) : free g mask' < free g mask := by
  refine filter_length_lt _ ?_ ?_
  · intro v hv
    simpa using h v (List.mem_range.1 hv)
  · obtain ⟨v, hv, h1, h2⟩ := hx
    exact ⟨v, List.mem_range.2 hv, by simp [h1], by simp [h2]⟩

omit [LinearOrder W] in
theorem free_le (mask : Nat → Nat) : free g mask ≤ g.n := by
  have := List.length_filter_le (fun v => mask v == 0) (List.range g.n)
  simpa [free] using this

end Verif.Coloring
