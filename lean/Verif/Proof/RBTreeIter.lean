import Verif.Proof.RBTreeErase

/-!
Helper lemmas for `RBTree`: lookup, iterators, bounds and traversal.
-/
namespace Verif.RBTree

variable {K V : Type} {s : St K V} {hl hr : Nat} {f g : Frame K V} {fs rs : List (Frame K V)} {t : T K V}

/-! ## Climbing -/

theorem cell_left_right (f : Frame K V) (a b : Nat) :
    (f.cell a b).left = (if f.lft then b else f.oth.ptr) ∧ (f.cell a b).right = (if f.lft then f.oth.ptr else b) := by
  unfold Frame.cell
  cases f.lft <;> simp

theorem oth_ptr_ne {x : Nat} {t : T K V} (h0 : x ≠ 0) (h : x ∉ t.ids) : x ≠ t.ptr := by
  intro e
  rw [e] at h0 h
  exact h (T.ptr_mem h0)

theorem climbRight_ok : ∀ (fuel : Nat) {fs : List (Frame K V)} {id c l k v r},
    Conf s hl hr fs (.node id c l k v r) → hr = lastPtr s.header (plug fs (.node id c l k v r)).list →
    fs.length + 2 ≤ fuel → ∀ Q, Ok (climbRight fuel id (up s.header fs)) s Q ↔ Q (firstPtr s.header (post fs)) s := by
  intro fuel
  induction fuel with
  | zero => intro _ _ _ _ _ _ _ _ _ h; omega
  | succ fuel ih =>
    intro fs id c l k v r h he hf Q
    have t1 := h.tr.1
    obtain ⟨hk, hv, hh⟩ := h.hd
    have hnd := h.nd
    have hlast := h.last_iff he
    cases fs with
    | nil =>
      simp only [idsC_nil, List.append_nil, T.ids_node, List.nodup_cons, List.nodup_append, List.mem_append,
        List.mem_cons] at hnd
      have hrt : s.root = id := h.rt
      rw [up_nil] at t1 ⊢
      unfold climbRight
      simp only [ok_bind, ok_rd, hh, Option.some.injEq, exists_eq_left']
      by_cases e : id = hr
      · rw [if_pos e]
        have hrn := hlast.1 e.symm
        simp only [post, List.append_nil] at hrn
        have hr0 : r = .nil := by
          cases r with
          | nil => rfl
          | node => simp at hrn
        subst hr0
        obtain ⟨fuel, rfl⟩ : ∃ n, fuel = n + 1 := ⟨fuel - 1, by simp at hf; omega⟩
        unfold climbRight
        have h1 : s.header ≠ 0 := by grind
        rw [hrt, ok_bind, ok_rd]
        simp only [t1, Option.some.injEq, exists_eq_left', T.ptr_nil]
        rw [if_neg h1, ok_bind, ok_rd]
        simp only [hh, Option.some.injEq, exists_eq_left']
        rw [if_pos e.symm, ok_pure]
        rfl
      · rw [if_neg e]
        have h1 : r.ptr ≠ s.header := Ne.symm (oth_ptr_ne (by grind) (by grind))
        simp only [ok_bind, ok_rd, t1, Option.some.injEq, exists_eq_left']
        rw [if_neg h1, ok_pure]
        rfl
    | cons f fs =>
      obtain ⟨c1, c2, c3⟩ := h.cx
      simp only [T.ids_node, idsC_cons, List.nodup_cons, List.nodup_append, List.mem_append, List.cons_append,
        List.mem_cons] at hnd
      rw [up_cons] at t1 ⊢
      unfold climbRight
      simp only [ok_bind, ok_rd, c1, Option.some.injEq, exists_eq_left', (cell_left_right f _ _).2, T.ptr_node]
      cases hfl : f.lft
      · simp only [Bool.false_eq_true, if_false, if_true]
        have hc := conf_fill.2 h
        have hp : (f.cell (up s.header fs) id).parent = up s.header fs := by unfold Frame.cell; split <;> rfl
        rw [hp]
        unfold Frame.fill at hc
        rw [hfl] at hc
        simp only [Bool.false_eq_true, if_false] at hc
        rw [ih hc (by
          rw [he, plug_cons]
          unfold Frame.fill
          rw [hfl]
          simp) (by simp at hf; omega)]
        simp [post, hfl]
      · have h1 : id ≠ f.oth.ptr := oth_ptr_ne (by grind) (by grind)
        have h2 : r.ptr ≠ f.id := Ne.symm (oth_ptr_ne (by grind) (by grind))
        simp only [if_true]
        rw [if_neg h1, ok_bind, ok_rd]
        simp only [t1, Option.some.injEq, exists_eq_left']
        rw [if_neg h2, ok_pure]
        simp [post, hfl]

theorem climbLeft_ok : ∀ (fuel : Nat) {fs : List (Frame K V)} {id c l k v r},
    Conf s hl hr fs (.node id c l k v r) → hl = firstPtr s.header (plug fs (.node id c l k v r)).list →
    fs.length + 2 ≤ fuel → ∀ Q, Ok (climbLeft fuel id (up s.header fs)) s Q ↔ Q (lastPtr s.header (pre fs)) s := by
  intro fuel
  induction fuel with
  | zero => intro _ _ _ _ _ _ _ _ _ h; omega
  | succ fuel ih =>
    intro fs id c l k v r h he hf Q
    have t1 := h.tr.1
    obtain ⟨hk, hv, hh⟩ := h.hd
    have hnd := h.nd
    have hfirst := h.first_iff he
    cases fs with
    | nil =>
      simp only [idsC_nil, List.append_nil, T.ids_node, List.nodup_cons, List.nodup_append, List.mem_append,
        List.mem_cons] at hnd
      have hrt : s.root = id := h.rt
      rw [up_nil] at t1 ⊢
      unfold climbLeft
      simp only [ok_bind, ok_rd, hh, Option.some.injEq, exists_eq_left']
      by_cases e : id = hl
      · rw [if_pos e]
        have hrn := hfirst.1 e.symm
        simp only [pre, List.nil_append] at hrn
        have hr0 : l = .nil := by
          cases l with
          | nil => rfl
          | node => simp at hrn
        subst hr0
        obtain ⟨fuel, rfl⟩ : ∃ n, fuel = n + 1 := ⟨fuel - 1, by simp at hf; omega⟩
        unfold climbLeft
        have h1 : s.header ≠ 0 := by grind
        rw [hrt, ok_bind, ok_rd]
        simp only [t1, Option.some.injEq, exists_eq_left', T.ptr_nil]
        rw [if_neg h1, ok_bind, ok_rd]
        simp only [hh, Option.some.injEq, exists_eq_left']
        rw [if_pos e.symm, ok_pure]
        rfl
      · rw [if_neg e]
        have h1 : l.ptr ≠ s.header := Ne.symm (oth_ptr_ne (by grind) (by grind))
        simp only [ok_bind, ok_rd, t1, Option.some.injEq, exists_eq_left']
        rw [if_neg h1, ok_pure]
        rfl
    | cons f fs =>
      obtain ⟨c1, c2, c3⟩ := h.cx
      simp only [T.ids_node, idsC_cons, List.nodup_cons, List.nodup_append, List.mem_append, List.cons_append,
        List.mem_cons] at hnd
      rw [up_cons] at t1 ⊢
      unfold climbLeft
      simp only [ok_bind, ok_rd, c1, Option.some.injEq, exists_eq_left', (cell_left_right f _ _).1, T.ptr_node]
      cases hfl : f.lft
      · have h1 : id ≠ f.oth.ptr := oth_ptr_ne (by grind) (by grind)
        have h2 : l.ptr ≠ f.id := Ne.symm (oth_ptr_ne (by grind) (by grind))
        simp only [Bool.false_eq_true, if_false]
        rw [if_neg h1, ok_bind, ok_rd]
        simp only [t1, Option.some.injEq, exists_eq_left']
        rw [if_neg h2, ok_pure]
        simp [pre, hfl, lastPtr_append]
        simp [lastPtr]
      · simp only [if_true]
        have hc := conf_fill.2 h
        have hp : (f.cell (up s.header fs) id).parent = up s.header fs := by unfold Frame.cell; split <;> rfl
        rw [hp]
        unfold Frame.fill at hc
        rw [hfl] at hc
        simp only [if_true] at hc
        rw [ih hc (by
          rw [he, plug_cons]
          unfold Frame.fill
          rw [hfl]
          simp) (by simp at hf; omega)]
        simp [pre, hfl]

theorem climbOut_ok : ∀ (fuel : Nat) {fs : List (Frame K V)} {id c l k v r},
    Conf s hl hr fs (.node id c l k v r) → fs.length < fuel →
    ∀ Q, Ok (climbOut fuel id) s Q ↔ Q (firstPtr s.header (post fs)) s := by
  intro fuel
  induction fuel with
  | zero => intro _ _ _ _ _ _ _ _ h; omega
  | succ fuel ih =>
    intro fs id c l k v r h hf Q
    have t1 := h.tr.1
    unfold climbOut
    rw [ok_bind, h.getDirection]
    simp only [ok_bind, ok_rd, t1, Option.some.injEq, exists_eq_left']
    cases fs with
    | nil =>
      rw [if_neg (by simp [dirOf]), ok_pure]
      rfl
    | cons f fs =>
      cases hfl : f.lft
      · have hd : dirOf (f :: fs) = .right := by simp [dirOf, hfl]
        rw [if_pos hd, up_cons]
        have hc := conf_fill.2 h
        unfold Frame.fill at hc
        rw [hfl] at hc
        simp only [Bool.false_eq_true, if_false] at hc
        rw [ih hc (by simp at hf; omega)]
        simp [post, hfl]
      · have hd : dirOf (f :: fs) = .left := by simp [dirOf, hfl]
        rw [hd, if_neg (by simp), ok_pure]
        simp [post, hfl]

/-! ## Lookup -/

/-- Number of nodes on the longest path. -/
def T.height : T K V → Nat
  | .nil => 0
  | .node _ _ l _ _ r => max l.height r.height + 1

theorem T.height_le (t : T K V) : t.height ≤ t.ids.length := by
  induction t with
  | nil => simp [T.height]
  | node id c l k v r hl hr => simp [T.height]; omega

theorem RB.height_le {t : T K V} {n : Nat} (h : RB t n) : t.height ≤ 2 * n + if t.isRed then 1 else 0 := by
  induction h with
  | nil => simp [T.height]
  | red a b c d h1 h2 =>
    rw [c] at h1
    rw [d] at h2
    simp [T.height] at *
    omega
  | @black id l k v r n a b h1 h2 =>
    have e1 : (if l.isRed = true then 1 else 0) ≤ 1 := by split <;> omega
    have e2 : (if r.isRed = true then 1 else 0) ≤ 1 := by split <;> omega
    simp [T.height] at *
    omega

theorem RB.size_ge {t : T K V} {n : Nat} (h : RB t n) : 2 ^ n ≤ t.ids.length + 1 := by
  induction h with
  | nil => simp
  | red a b c d h1 h2 => simp at *; omega
  | black a b h1 h2 => simp [Nat.pow_succ] at *; omega

theorem ids_length (t : T K V) : t.ids.length = t.list.length := by
  rw [T.ids_eq]; simp

section Order
variable [LinearOrder K]

theorem filter_cut {P : Nat × K × V → Bool} {a b : List (Nat × K × V)} (ha : ∀ e ∈ a, P e = false)
    (hb : ∀ e ∈ b, P e = true) : (a ++ b).filter P = b := by
  rw [List.filter_append, List.filter_eq_nil_iff.2 (by simpa using ha), List.filter_eq_self.2 hb]
  rfl

/-- A sorted list can be cut at an address in one way only. -/
theorem split_unique {a b a' b' : List (Nat × K × V)} {p : Nat} {k : K} {v : V}
    (h : (a ++ (p, k, v) :: b).Pairwise fun a b => a.2.1 < b.2.1)
    (e : a ++ (p, k, v) :: b = a' ++ (p, k, v) :: b') : a = a' ∧ b = b' := by
  rcases List.append_eq_append_iff.1 e with ⟨w, e1, e2⟩ | ⟨w, e1, e2⟩
  · cases w with
    | nil => simp_all
    | cons x w =>
      exfalso
      simp only [List.cons_append, List.cons.injEq] at e2
      rw [e2.2] at h
      simp only [List.pairwise_append, List.pairwise_cons] at h
      have := h.2.1.1 (p, k, v) (by simp)
      exact lt_irrefl _ this
  · cases w with
    | nil => simp_all
    | cons x w =>
      exfalso
      simp only [List.cons_append, List.cons.injEq] at e2
      rw [e1, ← e2.1] at h
      simp only [List.pairwise_append, List.pairwise_cons] at h
      have := h.2.2 (p, k, v) (by simp) (p, k, v) (by simp)
      exact lt_irrefl _ this

theorem At.ge_split {m id c l k v r} (h : At s m fs (.node id c l k v r)) :
    (∀ e ∈ pre fs ++ l.list, e.2.1 < k) ∧ ∀ e ∈ r.list ++ post fs, k < e.2.1 := by
  have hs := h.sorted
  rw [h.split] at hs
  rw [List.pairwise_append, List.pairwise_cons] at hs
  exact ⟨fun e he => hs.2.2 e he (id, k, v) (by simp), fun e he => hs.2.1.1 e he⟩

theorem getNode_ok (k : K) : ∀ (fuel : Nat) {m fs id c l k' v' r},
    At s m fs (.node id c l k' v' r : T K V) → Between fs k → (T.node id c l k' v' r).height ≤ fuel →
    ∀ Q, Ok (getNode fuel id k) s Q ↔ Q (firstPtr 0 (m.filter fun e => decide (e.2.1 = k))) s := by
  intro fuel
  induction fuel with
  | zero => intro _ _ _ _ _ _ _ _ _ _ h; simp [T.height] at h
  | succ fuel ih =>
    intro m fs id c l k' v' r h hb hf Q
    have t1 := h.conf.tr.1
    unfold getNode
    simp only [ok_bind, ok_rd, t1, Option.some.injEq, exists_eq_left']
    simp only [T.height] at hf
    have none_of : (∀ e ∈ m, e.2.1 ≠ k) → m.filter (fun e => decide (e.2.1 = k)) = [] := by
      intro ha
      exact List.filter_eq_nil_iff.2 fun e he => by simpa using ha e he
    by_cases hk : k = k'
    · rw [if_pos hk, ok_pure]
      subst hk
      have := h.ge_split
      rw [h.split, List.filter_append, List.filter_eq_nil_iff.2, List.nil_append, List.filter_cons]
      · simp
      · intro e he
        simpa using ne_of_lt (this.1 e he)
    · rw [if_neg hk]
      by_cases hlt : k < k'
      · rw [if_pos hlt]
        cases l with
        | nil =>
          rw [T.ptr_nil, if_pos rfl, ok_pure, none_of (h.left.absent (h.between_left hb hlt))]
          rfl
        | node id' c' l' k'' v'' r' =>
          rw [T.ptr_node, if_neg (h.left.conf.ne_zero)]
          exact ih h.left (h.between_left hb hlt) (by omega) Q
      · rw [if_neg hlt]
        have hgt : k' < k := lt_of_le_of_ne (not_lt.1 hlt) (Ne.symm hk)
        cases r with
        | nil =>
          rw [T.ptr_nil, if_pos rfl, ok_pure, none_of (h.right.absent (h.between_right hb hgt))]
          rfl
        | node id' c' l' k'' v'' r' =>
          rw [T.ptr_node, if_neg (h.right.conf.ne_zero)]
          exact ih h.right (h.between_right hb hgt) (by omega) Q

/-- The height of the tree of a represented state. -/
theorem Rep.root_at {m} (h : Rep s m) (hne : m ≠ []) : ∃ id c l k v r, At s m [] (.node id c l k v r) ∧ s.root = id ∧
    (T.node id c l k v r).height ≤ 2 * Nat.log2 (m.length + 1) ∧
    (T.node id c l k v r).ids.length = m.length := by
  obtain ⟨t, h⟩ := h
  have hl := h.ls
  rw [plug_nil] at hl
  cases t with
  | nil => exact absurd hl.symm hne
  | node id c l k v r =>
    refine ⟨id, c, l, k, v, r, h, h.conf.rt, ?_, ?_⟩
    · obtain ⟨n, _, hrb⟩ := h.rb
      have hb : (T.node id c l k v r).isRed = false := by
        by_contra hc
        exact h.top (by simpa using hc)
      have h1 := hrb.height_le
      have h2 := hrb.size_ge
      rw [hb] at h1
      rw [ids_length, hl] at h2
      have h3 : n ≤ Nat.log2 (m.length + 1) := (Nat.le_log2 (by omega)).2 h2
      simp at h1
      omega
    · rw [ids_length, hl]

theorem Rep.fuel {m} (h : Rep s m) : m.length + 2 ≤ s.next := by
  obtain ⟨t, h⟩ := h
  have h1 := h.conf.fuel
  have h2 := h.ls
  rw [plug_nil] at h2
  rw [ids_length, h2] at h1
  simpa using h1

theorem get_ok {m} (h : Rep s m) (k : K) (Q : Option V → St K V → Prop) :
    Ok (get k) s Q ↔ Q ((m.find? fun e => decide (e.2.1 = k)).map (·.2.2)) s := by
  unfold get
  rw [ok_bind, ok_theRoot]
  have hr := h.root_iff
  by_cases e : s.root = 0
  · have := hr.1 e
    subst this
    rw [if_pos e, ok_pure]
    rfl
  · rw [if_neg e, ok_bind, ok_fuelled]
    obtain ⟨id, c, l, k', v', r, h1, h2, h3, h4⟩ := h.root_at (mt hr.2 e)
    rw [h2, getNode_ok k s.next h1 (.nil k) (by have := T.height_le (T.node id c l k' v' r); have := h.fuel; omega)]
    rw [← List.head?_filter]
    cases hf : m.filter fun e => decide (e.2.1 = k) with
    | nil => simp [ok_pure]
    | cons e es =>
      obtain ⟨p, k1, v1⟩ := e
      have hm : (p, k1, v1) ∈ m := by
        have : (p, k1, v1) ∈ m.filter fun e => decide (e.2.1 = k) := by rw [hf]; simp
        exact (List.mem_filter.1 this).1
      obtain ⟨gs, c2, l2, r2, h5⟩ := h.find hm
      have hp : p ≠ 0 := h5.conf.ne_zero
      have t1 := h5.conf.tr.1
      rw [if_neg (show ¬ firstPtr 0 ((p, k1, v1) :: es) = 0 from hp), firstPtr_cons]
      simp only [ok_bind, ok_rd, t1, Option.some.injEq, exists_eq_left', ok_pure]
      rfl

theorem count_ok {m} (h : Rep s m) (hne : m ≠ []) (k : K) (Q : Nat → St K V → Prop) :
    Ok (count k) s Q ↔ Q (if ∃ e ∈ m, e.2.1 = k then 1 else 0) s := by
  unfold count
  rw [ok_bind, ok_theRoot, ok_bind, ok_fuelled]
  obtain ⟨id, c, l, k', v', r, h1, h2, h3, h4⟩ := h.root_at hne
  rw [h2, getNode_ok k s.next h1 (.nil k) (by have := T.height_le (T.node id c l k' v' r); have := h.fuel; omega)]
  by_cases e : ∃ e ∈ m, e.2.1 = k
  · rw [if_pos e]
    obtain ⟨x, hx, hk⟩ := e
    have : x ∈ m.filter fun e => decide (e.2.1 = k) := List.mem_filter.2 ⟨hx, by simpa using hk⟩
    cases hf : m.filter fun e => decide (e.2.1 = k) with
    | nil => rw [hf] at this; simp at this
    | cons e es =>
      obtain ⟨p, k1, v1⟩ := e
      have hm : (p, k1, v1) ∈ m := by
        have : (p, k1, v1) ∈ m.filter fun e => decide (e.2.1 = k) := by rw [hf]; simp
        exact (List.mem_filter.1 this).1
      obtain ⟨gs, c2, l2, r2, h5⟩ := h.find hm
      have hp : p ≠ 0 := h5.conf.ne_zero
      rw [firstPtr_cons, if_neg hp, ok_pure]
  · rw [if_neg e]
    have : m.filter (fun e => decide (e.2.1 = k)) = [] :=
      List.filter_eq_nil_iff.2 fun x hx => by simpa using fun hk => e ⟨x, hx, hk⟩
    rw [this, firstPtr_nil, if_pos rfl, ok_pure]

/-! ## Iterators -/

theorem At.incr {m id c l k v r} (h : At s m fs (.node id c l k v r)) (Q : Nat → St K V → Prop) :
    Ok (increment id) s Q ↔ Q (firstPtr s.header (r.list ++ post fs)) s := by
  obtain ⟨t1, tl, tr⟩ := h.conf.tr
  have hfu := h.conf.fuel
  have h0 : 0 ∉ r.ids := by
    have := h.conf.nd
    simp only [T.ids_node, List.nodup_cons, List.mem_append, List.mem_cons] at this
    tauto
  unfold increment
  simp only [ok_bind, ok_rd, t1, Option.some.injEq, exists_eq_left', ok_fuelled]
  by_cases e : r = .nil
  · subst e
    rw [T.ptr_nil, if_pos rfl, ok_fuelled, climbRight_ok (s.next + 1) h.conf (by rw [h.ls]) (by omega)]
    rfl
  · rw [if_neg (mt (T.ptr_eq_zero h0).1 e), ok_fuelled, leftmost_ok s.next tr h0 e (by simp at hfu; omega),
      firstPtr_append, if_neg (list_ne_nil e), firstPtr_default (b := s.header) (list_ne_nil e)]

theorem At.rincr {m id c l k v r} (h : At s m fs (.node id c l k v r)) (Q : Nat → St K V → Prop) :
    Ok (rincrement id) s Q ↔ Q (lastPtr s.header (pre fs ++ l.list)) s := by
  obtain ⟨t1, tl, tr⟩ := h.conf.tr
  have hfu := h.conf.fuel
  have h0 : 0 ∉ l.ids := by
    have := h.conf.nd
    simp only [T.ids_node, List.nodup_cons, List.mem_append, List.mem_cons] at this
    tauto
  unfold rincrement
  simp only [ok_bind, ok_rd, t1, Option.some.injEq, exists_eq_left', ok_fuelled]
  by_cases e : l = .nil
  · subst e
    rw [T.ptr_nil, if_pos rfl, ok_fuelled, climbLeft_ok (s.next + 1) h.conf (by rw [h.ls]) (by omega), T.list_nil,
      List.append_nil]
  · rw [if_neg (mt (T.ptr_eq_zero h0).1 e), ok_fuelled, rightmost_ok s.next tl h0 e (by simp at hfu; omega),
      lastPtr_append, if_neg (list_ne_nil e), lastPtr_default (b := s.header) (list_ne_nil e)]

/-- The tree around an entry, with the list cut there. -/
theorem Rep.findAt {a b p k v} (h : Rep s (a ++ (p, k, v) :: b)) :
    ∃ fs c l r, At s (a ++ (p, k, v) :: b) fs (.node p c l k v r : T K V) ∧ a = pre fs ++ l.list ∧
      b = r.list ++ post fs := by
  obtain ⟨fs, c, l, r, h1⟩ := h.find (p := p) (k := k) (v := v) (by simp)
  have := split_unique h1.sorted h1.split
  exact ⟨fs, c, l, r, h1, this.1, this.2⟩

theorem Rep.incr {a b p k v} (h : Rep s (a ++ (p, k, v) :: b)) (Q : Nat → St K V → Prop) :
    Ok (increment p) s Q ↔ Q (firstPtr s.header b) s := by
  obtain ⟨fs, c, l, r, h1, _, h3⟩ := h.findAt
  rw [h3]
  exact h1.incr Q

theorem Rep.rincr {a b p k v} (h : Rep s (a ++ (p, k, v) :: b)) (Q : Nat → St K V → Prop) :
    Ok (rincrement p) s Q ↔ Q (lastPtr s.header a) s := by
  obtain ⟨fs, c, l, r, h1, h2, _⟩ := h.findAt
  rw [h2]
  exact h1.rincr Q

theorem Rep.atEnd_entry {m p k v} (h : Rep s m) (hm : (p, k, v) ∈ m) (Q : Bool → St K V → Prop) :
    Ok (atEnd p) s Q ↔ Q false s := by
  obtain ⟨fs, c, l, r, h1⟩ := h.find hm
  have t1 := h1.conf.tr.1
  have hnd := h1.conf.nd
  have ht := h1.top
  unfold atEnd
  simp only [ok_bind, ok_rd, t1, Option.some.injEq, exists_eq_left']
  cases c
  · rw [if_neg (by simp), ok_pure]
  · cases fs with
    | nil => exact absurd (ht rfl) (by simp [topBlack])
    | cons f fs =>
      obtain ⟨c1, _, _⟩ := h1.conf.cx
      have hp : (f.cell (up s.header fs) p).parent = up s.header fs := by unfold Frame.cell; split <;> rfl
      have hne : up s.header fs ≠ p := by
        simp only [T.ids_node, idsC_cons, List.nodup_cons, List.nodup_append, List.mem_append, List.cons_append,
          List.mem_cons] at hnd
        cases fs with
        | nil => simp; grind
        | cons g fs => simp at *; grind
      simp only [if_true, ok_bind, ok_rd, up_cons, c1, Option.some.injEq, exists_eq_left', ok_pure, T.ptr_node, hp]
      rw [beq_eq_false_iff_ne.2 hne]

theorem Rep.atEnd_header {m} (h : Rep s m) (hne : m ≠ []) (Q : Bool → St K V → Prop) :
    Ok (atEnd s.header) s Q ↔ Q true s := by
  obtain ⟨id, c, l, k', v', r, h1, h2, h3, h4⟩ := h.root_at hne
  obtain ⟨hk, hv, hh⟩ := h1.conf.hd
  have t1 := h1.conf.tr.1
  unfold atEnd
  simp only [ok_bind, ok_rd, hh, Option.some.injEq, exists_eq_left', if_true, h2, t1, ok_pure, up_nil]
  simp

theorem Rep.header_cell {m} (h : Rep s m) : ∃ k v, s.heap s.header =
    some ⟨true, s.root, firstPtr s.header m, lastPtr s.header m, k, v⟩ := by
  obtain ⟨t, h⟩ := h
  exact h.conf.hd

theorem Rep.decr {a b p k v} (h : Rep s (a ++ (p, k, v) :: b)) (Q : Nat → St K V → Prop) :
    Ok (decrement p) s Q ↔ Q (lastPtr s.header a) s := by
  unfold decrement
  rw [ok_bind, h.atEnd_entry (p := p) (k := k) (v := v) (by simp), if_neg (by simp), h.rincr]

theorem Rep.decr_header {m} (h : Rep s m) (hne : m ≠ []) (Q : Nat → St K V → Prop) :
    Ok (decrement s.header) s Q ↔ Q (lastPtr s.header m) s := by
  obtain ⟨hk, hv, hh⟩ := h.header_cell
  unfold decrement
  rw [ok_bind, h.atEnd_header hne, if_pos rfl]
  simp only [ok_bind, ok_rd, hh, Option.some.injEq, exists_eq_left', ok_pure]

theorem Rep.rdecr {a b p k v} (h : Rep s (a ++ (p, k, v) :: b)) (Q : Nat → St K V → Prop) :
    Ok (rdecrement p) s Q ↔ Q (firstPtr s.header b) s := by
  unfold rdecrement
  rw [ok_bind, h.atEnd_entry (p := p) (k := k) (v := v) (by simp), if_neg (by simp), h.incr]

theorem Rep.rdecr_header {m} (h : Rep s m) (hne : m ≠ []) (Q : Nat → St K V → Prop) :
    Ok (rdecrement s.header) s Q ↔ Q (firstPtr s.header m) s := by
  obtain ⟨hk, hv, hh⟩ := h.header_cell
  unfold rdecrement
  rw [ok_bind, h.atEnd_header hne, if_pos rfl]
  simp only [ok_bind, ok_rd, hh, Option.some.injEq, exists_eq_left', ok_pure]

/-- The faulty `decrement` of the constant reverse iterator. -/
theorem Rep.crdecr_header {m} (h : Rep s m) (hne : m ≠ []) (Q : Nat → St K V → Prop) :
    Ok (crdecrement s.header) s Q ↔ Q (lastPtr s.header m) s := by
  obtain ⟨hk, hv, hh⟩ := h.header_cell
  unfold crdecrement
  rw [ok_bind, h.atEnd_header hne, if_pos rfl]
  simp only [ok_bind, ok_rd, hh, Option.some.injEq, exists_eq_left', ok_pure]

theorem Rep.begin {m} (h : Rep s m) (Q : Nat → St K V → Prop) :
    Ok (RBTree.begin : M K V Nat) s Q ↔ Q (firstPtr s.header m) s := by
  obtain ⟨hk, hv, hh⟩ := h.header_cell
  unfold RBTree.begin
  simp only [ok_bind, ok_theHeader, ok_rd, hh, Option.some.injEq, exists_eq_left', ok_pure]

theorem Rep.rbegin {m} (h : Rep s m) (Q : Nat → St K V → Prop) :
    Ok (RBTree.rbegin : M K V Nat) s Q ↔ Q (lastPtr s.header m) s := by
  obtain ⟨hk, hv, hh⟩ := h.header_cell
  unfold RBTree.rbegin
  simp only [ok_bind, ok_theHeader, ok_rd, hh, Option.some.injEq, exists_eq_left', ok_pure]

theorem Rep.deref {m p k v} (h : Rep s m) (hm : (p, k, v) ∈ m) (Q : K × V → St K V → Prop) :
    Ok (RBTree.deref p) s Q ↔ Q (k, v) s := by
  obtain ⟨fs, c, l, r, h1⟩ := h.find hm
  have t1 := h1.conf.tr.1
  unfold RBTree.deref
  simp only [ok_bind, ok_rd, t1, Option.some.injEq, exists_eq_left', ok_pure]

/-- Addresses: distinct, live, and none is null or the header's. -/
theorem Rep.ptrs {m} (h : Rep s m) : (0 :: s.header :: m.map (·.1)).Nodup := by
  obtain ⟨t, h⟩ := h
  have h1 := h.conf.nd
  have h2 := h.ls
  rw [plug_nil] at h2
  rwa [idsC_nil, List.append_nil, T.ids_eq, h2] at h1

/-! ## Erasing at iterators -/

theorem eraseAt_ok {a b p k v} (h : Rep s (a ++ (p, k, v) :: b)) :
    Ok (eraseAt p) s fun q s' => q = firstPtr s.header b ∧ Rep s' (a ++ b) ∧ s'.header = s.header ∧
      s'.next = s.next := by
  have hp := h.ptrs
  simp only [List.map_append, List.map_cons, List.nodup_cons, List.mem_append, List.mem_cons, List.nodup_append] at hp
  have hne : ¬ (p = 0 ∨ p = s.header) := by grind
  unfold eraseAt endIt
  rw [ok_bind, ok_theHeader, if_neg hne, ok_bind, h.incr, ok_bind, ok_theRoot, ok_bind, ok_rd]
  obtain ⟨fs, c, l, r, h1⟩ := h.find (p := p) (k := k) (v := v) (by simp)
  refine ⟨_, h1.conf.tr.1, ?_⟩
  rw [ok_bind]
  refine Ok.mono (removeRoot_ok h (by simp) k) ?_
  rintro x s' ⟨_, h2, h3⟩
  rw [ok_pure]
  rw [filter_split h1.sorted] at h2
  exact ⟨rfl, h2, h3⟩

theorem eraseLoop_ok : ∀ (fuel : Nat) {s : St K V} {a b c : List (Nat × K × V)}, Rep s (a ++ b ++ c) →
    b.length < fuel → Ok (eraseLoop fuel (firstPtr s.header (b ++ c)) (firstPtr s.header c)) s fun _ s' =>
      Rep s' (a ++ c) ∧ s'.header = s.header ∧ s'.next = s.next := by
  intro fuel
  induction fuel with
  | zero => intro _ _ _ _ _ h; omega
  | succ fuel ih =>
    intro s a b c h hf
    unfold eraseLoop
    cases b with
    | nil =>
      rw [List.nil_append, if_pos rfl, ok_pure]
      exact ⟨by simpa using h, rfl, rfl⟩
    | cons e b =>
      obtain ⟨p, k, v⟩ := e
      have h' : Rep s (a ++ (p, k, v) :: (b ++ c)) := by simpa using h
      have hp := h'.ptrs
      simp only [List.map_append, List.map_cons, List.nodup_cons, List.mem_append, List.mem_cons, List.nodup_append] at hp
      have hne : p ≠ firstPtr s.header c := by
        cases c with
        | nil => simp; grind
        | cons e c =>
          simp only [firstPtr_cons, List.map_cons, List.mem_cons] at *
          grind
      rw [if_neg (show ¬ firstPtr s.header ((p, k, v) :: b ++ c) = firstPtr s.header c from hne), List.cons_append,
        firstPtr_cons, ok_bind, h'.incr, ok_bind, ok_theRoot, ok_bind, ok_rd]
      obtain ⟨fs, c', l, r, h1⟩ := h'.find (p := p) (k := k) (v := v) (by simp)
      refine ⟨_, h1.conf.tr.1, ?_⟩
      rw [ok_bind]
      refine Ok.mono (removeRoot_ok h' (by simp) k) ?_
      rintro x s' ⟨_, h2, h3, h4⟩
      rw [filter_split h1.sorted] at h2
      have := ih (s := s') (a := a) (b := b) (c := c) (by simpa using h2) (by simp at hf; omega)
      rw [h3] at this
      refine Ok.mono this ?_
      rintro _ s'' ⟨h5, h6, h7⟩
      exact ⟨h5, h6, h7.trans h4⟩

theorem eraseRange_ok {a b c : List (Nat × K × V)} (h : Rep s (a ++ b ++ c)) :
    Ok (eraseRange (firstPtr s.header (b ++ c)) (firstPtr s.header c)) s fun q s' =>
      q = firstPtr s.header c ∧ Rep s' (a ++ c) ∧ s'.header = s.header ∧ s'.next = s.next := by
  unfold eraseRange endIt
  rw [ok_bind, h.begin, ok_bind, ok_theHeader]
  by_cases e : firstPtr s.header (b ++ c) = firstPtr s.header (a ++ b ++ c) ∧ firstPtr s.header c = s.header
  · rw [if_pos e, ok_bind]
    have hp := h.ptrs
    simp only [List.map_append, List.nodup_cons, List.mem_append, List.mem_cons, List.nodup_append] at hp
    have hc : c = [] := by
      cases c with
      | nil => rfl
      | cons x c => simp at hp e; grind
    subst hc
    have ha : a = [] := by
      cases a with
      | nil => rfl
      | cons x a =>
        simp only [List.append_nil, List.cons_append, firstPtr_cons] at e
        cases b with
        | nil => simp at hp e; grind
        | cons y b => simp at hp e; grind
    subst ha
    refine Ok.mono h.clear ?_
    rintro _ s' ⟨h1, h2, h3⟩
    rw [ok_theHeader]
    exact ⟨h2, h1, h2, h3⟩
  · rw [if_neg e, ok_bind, ok_fuelled]
    have hfu := h.fuel
    refine Ok.mono (eraseLoop_ok s.next h (by simp at hfu; omega)) ?_
    rintro _ s' h1
    rw [ok_pure]
    exact ⟨rfl, h1⟩

/-! ## Bounds -/

theorem lowerLoop_ok (k : K) : ∀ (fuel : Nat) {m fs id c l k' v' r},
    At s m fs (.node id c l k' v' r : T K V) → Between fs k → (T.node id c l k' v' r).ids.length ≤ fuel →
    ∀ Q, Ok (lowerLoop fuel id k) s Q ↔ Q (firstPtr s.header (m.filter fun e => decide (k ≤ e.2.1))) s := by
  intro fuel
  induction fuel with
  | zero => intro _ _ _ _ _ _ _ _ _ _ h; simp at h
  | succ fuel ih =>
    intro m fs id c l k' v' r h hb hf Q
    have t1 := h.conf.tr.1
    have hfu := h.conf.fuel
    unfold lowerLoop
    simp only [ok_bind, ok_rd, t1, Option.some.injEq, exists_eq_left']
    simp only [T.ids_node, List.length_append, List.length_cons] at hf
    have hsp := h.ge_split
    have hm := h.split
    by_cases hk : k = k'
    · rw [if_pos hk, ok_pure]
      subst hk
      rw [hm, filter_cut]
      · rfl
      · intro e he
        simpa using hsp.1 e he
      · intro e he
        rcases List.mem_cons.1 he with rfl | he
        · simp
        · simpa using le_of_lt (hsp.2 e he)
    · rw [if_neg hk]
      by_cases hlt : k < k'
      · rw [if_pos hlt]
        cases l with
        | nil =>
          rw [T.ptr_nil, if_pos rfl, ok_pure, hm, filter_cut]
          · rfl
          · intro e he
            simpa using hb.1 e (by simpa using he)
          · intro e he
            rcases List.mem_cons.1 he with rfl | he
            · simpa using le_of_lt hlt
            · simpa using le_of_lt (lt_trans hlt (hsp.2 e he))
        | node id' c' l' k'' v'' r' =>
          rw [T.ptr_node, if_neg (h.left.conf.ne_zero)]
          exact ih h.left (h.between_left hb hlt) (by omega) Q
      · rw [if_neg hlt]
        have hgt : k' < k := lt_of_le_of_ne (not_lt.1 hlt) (Ne.symm hk)
        cases r with
        | nil =>
          rw [T.ptr_nil, if_pos rfl, ok_fuelled, climbOut_ok s.next h.conf (by omega)]
          have e1 : m = ((pre fs ++ l.list) ++ [(id, k', v')]) ++ post fs := by rw [hm]; simp
          rw [e1, filter_cut]
          · intro e he
            rcases List.mem_append.1 he with he | he
            · simpa using lt_trans (hsp.1 e he) hgt
            · rw [List.mem_singleton.1 he]
              simpa using hgt
          · intro e he
            simpa using le_of_lt (hb.2 e he)
        | node id' c' l' k'' v'' r' =>
          rw [T.ptr_node, if_neg (h.right.conf.ne_zero)]
          exact ih h.right (h.between_right hb hgt) (by omega) Q

/-- A weaker form of `Between`, for the walk of `upper_bound`. -/
def Between' (fs : List (Frame K V)) (k : K) : Prop :=
  (∀ e ∈ pre fs, e.2.1 ≤ k) ∧ ∀ e ∈ post fs, k < e.2.1

theorem upperLoop_ok (k : K) : ∀ (fuel : Nat) {m fs id c l k' v' r},
    At s m fs (.node id c l k' v' r : T K V) → Between' fs k → (T.node id c l k' v' r).ids.length ≤ fuel →
    ∀ Q, Ok (upperLoop fuel id k) s Q ↔ Q (firstPtr s.header (m.filter fun e => decide (k < e.2.1))) s := by
  intro fuel
  induction fuel with
  | zero => intro _ _ _ _ _ _ _ _ _ _ h; simp at h
  | succ fuel ih =>
    intro m fs id c l k' v' r h hb hf Q
    have t1 := h.conf.tr.1
    have hfu := h.conf.fuel
    unfold upperLoop
    simp only [ok_bind, ok_rd, t1, Option.some.injEq, exists_eq_left']
    simp only [T.ids_node, List.length_append, List.length_cons] at hf
    have hsp := h.ge_split
    have hm := h.split
    by_cases hlt : k < k'
    · rw [if_pos hlt]
      cases l with
      | nil =>
        rw [T.ptr_nil, if_pos rfl, ok_pure, hm, filter_cut]
        · rfl
        · intro e he
          simpa using hb.1 e (by simpa using he)
        · intro e he
          rcases List.mem_cons.1 he with rfl | he
          · simpa using hlt
          · simpa using lt_trans hlt (hsp.2 e he)
      | node id' c' l' k'' v'' r' =>
        rw [T.ptr_node, if_neg (h.left.conf.ne_zero)]
        refine ih h.left ⟨?_, ?_⟩ (by omega) Q
        · simpa [pre] using hb.1
        · intro e he
          simp only [post, if_true, List.cons_append, List.mem_cons, List.mem_append] at he
          rcases he with rfl | he | he
          · exact hlt
          · exact lt_trans hlt (hsp.2 e (by simp [he]))
          · exact hb.2 e he
    · rw [if_neg hlt]
      have hge : k' ≤ k := not_lt.1 hlt
      cases r with
      | nil =>
        rw [T.ptr_nil, if_pos rfl, ok_fuelled, climbOut_ok s.next h.conf (by omega)]
        have e1 : m = ((pre fs ++ l.list) ++ [(id, k', v')]) ++ post fs := by rw [hm]; simp
        rw [e1, filter_cut]
        · intro e he
          rcases List.mem_append.1 he with he | he
          · simpa using le_of_lt (lt_of_lt_of_le (hsp.1 e he) hge)
          · rw [List.mem_singleton.1 he]
            simpa using hge
        · intro e he
          simpa using hb.2 e he
      | node id' c' l' k'' v'' r' =>
        rw [T.ptr_node, if_neg (h.right.conf.ne_zero)]
        refine ih h.right ⟨?_, ?_⟩ (by omega) Q
        · intro e he
          simp only [pre, Bool.false_eq_true, if_false, List.mem_append, List.mem_singleton] at he
          rcases he with he | he | rfl
          · exact hb.1 e he
          · exact le_of_lt (lt_of_lt_of_le (hsp.1 e (by simp [he])) hge)
          · exact hge
        · simpa [post] using hb.2

theorem lowerBound_ok {m} (h : Rep s m) (k : K) (Q : Nat → St K V → Prop) :
    Ok (lowerBound k) s Q ↔ Q (firstPtr s.header (m.filter fun e => decide (k ≤ e.2.1))) s := by
  unfold lowerBound
  rw [ok_bind, ok_theRoot]
  have hr := h.root_iff
  by_cases e : s.root = 0
  · have := hr.1 e
    subst this
    rw [if_pos e, ok_theHeader]
    rfl
  · rw [if_neg e, ok_fuelled]
    obtain ⟨id, c, l, k', v', r, h1, h2, h3, h4⟩ := h.root_at (mt hr.2 e)
    have := h.fuel
    rw [h2, lowerLoop_ok k s.next h1 (.nil k) (by omega)]

theorem upperBound_ok {m} (h : Rep s m) (k : K) (Q : Nat → St K V → Prop) :
    Ok (upperBound k) s Q ↔ Q (firstPtr s.header (m.filter fun e => decide (k < e.2.1))) s := by
  unfold upperBound
  rw [ok_bind, ok_theRoot]
  have hr := h.root_iff
  by_cases e : s.root = 0
  · have := hr.1 e
    subst this
    rw [if_pos e, ok_theHeader]
    rfl
  · rw [if_neg e, ok_fuelled]
    obtain ⟨id, c, l, k', v', r, h1, h2, h3, h4⟩ := h.root_at (mt hr.2 e)
    have := h.fuel
    rw [h2, upperLoop_ok k s.next h1 ⟨by simp [pre], by simp [post]⟩ (by omega)]

end Order

/-! ## Traversal -/

/-- What is still to be visited for a node on the stack. -/
def pending : T K V → List (K × V)
  | .nil => []
  | .node _ _ _ k v r => (k, v) :: r.list.map (·.2)

/-- Steps a stack takes. -/
def cost : List (T K V) → Nat
  | [] => 1
  | .nil :: st => cost st
  | .node _ _ _ _ _ r :: st => 1 + 2 * r.ids.length + cost st

theorem traverse_ok : ∀ (fuel : Nat) {par : Nat} {t : T K V} {st : List (T K V)}, Tr s.heap par t → 0 ∉ t.ids →
    (∀ u ∈ st, u ≠ .nil ∧ (∃ par, Tr s.heap par u) ∧ 0 ∉ u.ids) → 2 * t.ids.length + cost st ≤ fuel →
    ∀ Q, Ok (traverse fuel t.ptr (st.map T.ptr)) s Q ↔ Q (t.list.map (·.2) ++ st.flatMap pending) s := by
  intro fuel
  induction fuel with
  | zero =>
    intro par t st _ _ hst hf
    have : ∀ st : List (T K V), 1 ≤ cost st := by
      intro st
      induction st with
      | nil => simp [cost]
      | cons u st ih => cases u <;> simp [cost] <;> omega
    have := this st
    omega
  | succ fuel ih =>
    intro par t st ht h0 hst hf Q
    cases t with
    | nil =>
      cases st with
      | nil => simp [traverse, ok_pure]
      | cons u st =>
        have hu := hst u (by simp)
        cases u with
        | nil => exact absurd rfl hu.1
        | node id c l k v r =>
          obtain ⟨_, ⟨par', u1, u2, u3⟩, u4⟩ := hu
          simp only [T.ids_nil, List.length_nil, cost] at hf
          simp only [T.ptr_nil, List.map_cons, T.ptr_node, traverse, if_true, ok_bind, ok_rd, u1, Option.some.injEq,
            exists_eq_left']
          rw [ih u3 (fun e => u4 (by simp [e])) (fun x hx => hst x (by simp [hx])) (by omega), ok_pure]
          simp [pending]
    | node id c l k v r =>
      obtain ⟨h1, h2, h3⟩ := ht
      have hid : id ≠ 0 := by rintro rfl; simp at h0
      simp only [T.ids_node, List.length_append, List.length_cons] at hf
      rw [T.ptr_node]
      unfold traverse
      rw [if_neg hid, ok_bind, ok_rd]
      simp only [h1, Option.some.injEq, exists_eq_left']
      have := ih (st := .node id c l k v r :: st) h2 (fun e => h0 (by simp [e])) (by
        intro x hx
        rcases List.mem_cons.1 hx with rfl | hx
        · exact ⟨by simp, ⟨par, h1, h2, h3⟩, h0⟩
        · exact hst x hx) (by simp only [cost]; omega) Q
      rw [List.map_cons, T.ptr_node] at this
      rw [this]
      simp [pending]

theorem forEach_ok [LinearOrder K] {m} (h : Rep s m) (Q : List (K × V) → St K V → Prop) :
    Ok (forEach : M K V _) s Q ↔ Q (m.map (·.2)) s := by
  unfold forEach
  rw [ok_bind, ok_theRoot]
  have hr := h.root_iff
  by_cases e : s.root = 0
  · have := hr.1 e
    subst this
    rw [if_pos e, ok_pure]
    rfl
  · rw [if_neg e, ok_fuelled]
    obtain ⟨id, c, l, k', v', r, h1, h2, h3, h4⟩ := h.root_at (mt hr.2 e)
    have hfu := h.fuel
    have h0 : 0 ∉ (T.node id c l k' v' r).ids := by
      have := h1.conf.nd
      simp only [List.nodup_cons, List.mem_append, List.mem_cons] at this
      tauto
    have := traverse_ok (2 * s.next + 1) (st := []) h1.conf.tr h0 (by simp) (by simp only [cost]; omega) Q
    rw [List.map_nil, T.ptr_node] at this
    rw [h2, this]
    have := h1.ls
    rw [plug_nil] at this
    rw [this]
    simp

end Verif.RBTree
