import Verif.Proof.RBTreeRemove

/-!
Helper lemmas for `RBTree`: insertion and lookup.
-/
namespace Verif.RBTree

variable {K V : Type} {s : St K V} {hl hr : Nat} {f g : Frame K V} {fs : List (Frame K V)} {t : T K V}

/-! ## Fuel -/

theorem length_le_of_lt {l : List Nat} {n : Nat} (nd : l.Nodup) (h : ∀ x ∈ l, x < n) : l.length ≤ n := by
  have : l ⊆ List.range n := fun x hx => List.mem_range.2 (h x hx)
  have := (nd.subperm this).length_le
  simpa using this

theorem idsC_length (fs : List (Frame K V)) : fs.length ≤ (idsC fs).length := by
  induction fs with
  | nil => simp
  | cons f fs ih => simp; omega

theorem Conf.fuel (h : Conf s hl hr fs t) : t.ids.length + fs.length + 2 ≤ s.next := by
  have h1 : (0 :: s.header :: (t.ids ++ idsC fs)).length ≤ s.next := by
    refine length_le_of_lt h.nd ?_
    intro x hx
    rcases List.mem_cons.1 hx with rfl | hx
    · exact Nat.lt_of_le_of_lt (Nat.zero_le _) (h.nx s.header (by simp))
    · exact h.nx x hx
  have := idsC_length fs
  simp at h1
  omega

/-! ## The abstract state -/

/-- Address of the first entry, or `h`. -/
def firstPtr (h : Nat) : List (Nat × K × V) → Nat
  | [] => h
  | e :: _ => e.1

/-- Address of the last entry, or `h`. -/
def lastPtr (h : Nat) (m : List (Nat × K × V)) : Nat := firstPtr h m.reverse

@[simp] theorem firstPtr_nil (h : Nat) : firstPtr h ([] : List (Nat × K × V)) = h := rfl
@[simp] theorem firstPtr_cons (h : Nat) (e : Nat × K × V) (m) : firstPtr h (e :: m) = e.1 := rfl

theorem firstPtr_append (h : Nat) (a b : List (Nat × K × V)) :
    firstPtr h (a ++ b) = if a = [] then firstPtr h b else firstPtr h a := by
  cases a <;> simp

theorem lastPtr_append (h : Nat) (a b : List (Nat × K × V)) :
    lastPtr h (a ++ b) = if b = [] then lastPtr h a else lastPtr h b := by
  unfold lastPtr
  rw [List.reverse_append, firstPtr_append]
  simp

theorem firstPtr_congr (h : Nat) {a b : List (Nat × K × V)} (e : a.map (·.1) = b.map (·.1)) :
    firstPtr h a = firstPtr h b := by
  cases a <;> cases b <;> simp_all

theorem lastPtr_congr (h : Nat) {a b : List (Nat × K × V)} (e : a.map (·.1) = b.map (·.1)) :
    lastPtr h a = lastPtr h b :=
  firstPtr_congr h (by rw [List.map_reverse, List.map_reverse, e])

theorem firstPtr_mem {h : Nat} {a : List (Nat × K × V)} (ha : a ≠ []) : firstPtr h a ∈ a.map (·.1) := by
  cases a <;> simp_all

theorem lastPtr_mem {h : Nat} {a : List (Nat × K × V)} (ha : a ≠ []) : lastPtr h a ∈ a.map (·.1) := by
  have := firstPtr_mem (h := h) (a := a.reverse) (by simpa using ha)
  simpa [lastPtr] using this

theorem ids_pre_post (fs : List (Frame K V)) :
    (idsC fs).Perm ((pre fs).map (·.1) ++ (post fs).map (·.1)) := by
  induction fs with
  | nil => simp [pre, post]
  | cons f fs ih =>
    refine List.perm_iff_count.2 fun a => ?_
    have := List.perm_iff_count.1 ih a
    rw [List.count_append] at this
    have h2 : List.map (fun x : Nat × K × V => x.1) f.oth.list = f.oth.ids := (T.ids_eq _).symm
    cases hf : f.lft
    · simp [pre, post, hf, List.count_append, List.count_cons, h2, this]; omega
    · simp [pre, post, hf, List.count_append, List.count_cons, h2, this]; omega

/-- The first entry is the one at the end of the path iff there is none before it. -/
theorem Conf.first_iff {id c l k v r} (h : Conf s hl hr fs (.node id c l k v r))
    (he : hl = firstPtr s.header (plug fs (.node id c l k v r)).list) :
    hl = id ↔ pre fs ++ l.list = [] := by
  rw [plug_list, T.list_node] at he
  have hnd := h.nd
  have hm : ∀ x ∈ (pre fs).map (·.1), x ∈ idsC fs := fun x hx =>
    (ids_pre_post fs).mem_iff.2 (List.mem_append.2 (.inl hx))
  simp only [T.ids_node, List.nodup_cons, List.nodup_append, List.mem_append, List.mem_cons,
      List.cons_append, List.append_assoc] at hnd
  constructor
  · intro e
    have e1 : pre fs ++ (l.list ++ (id, k, v) :: r.list) ++ post fs =
      (pre fs ++ l.list) ++ ((id, k, v) :: r.list ++ post fs) := by simp
    rw [e1, firstPtr_append] at he
    by_cases hn : pre fs ++ l.list = []
    · exact hn
    · rw [if_neg hn] at he
      exfalso
      have := firstPtr_mem (h := s.header) hn
      rw [← he, e, List.map_append, ← T.ids_eq] at this
      rcases List.mem_append.1 this with h1 | h1
      · have := hm _ h1
        grind
      · grind
  · intro hn
    have e1 : pre fs ++ (l.list ++ (id, k, v) :: r.list) ++ post fs =
      (pre fs ++ l.list) ++ ((id, k, v) :: r.list ++ post fs) := by simp
    rw [e1, firstPtr_append, if_pos hn] at he
    simpa using he

theorem Conf.last_iff {id c l k v r} (h : Conf s hl hr fs (.node id c l k v r))
    (he : hr = lastPtr s.header (plug fs (.node id c l k v r)).list) :
    hr = id ↔ r.list ++ post fs = [] := by
  rw [plug_list, T.list_node] at he
  have e1 : pre fs ++ (l.list ++ (id, k, v) :: r.list) ++ post fs =
    (pre fs ++ l.list ++ [(id, k, v)]) ++ (r.list ++ post fs) := by simp
  rw [e1, lastPtr_append] at he
  have hnd := h.nd
  have hm : ∀ x ∈ (post fs).map (·.1), x ∈ idsC fs := fun x hx =>
    (ids_pre_post fs).mem_iff.2 (List.mem_append.2 (.inr hx))
  simp only [T.ids_node, List.nodup_cons, List.nodup_append, List.mem_append, List.mem_cons,
      List.cons_append, List.append_assoc] at hnd
  constructor
  · intro e
    by_cases hn : r.list ++ post fs = []
    · exact hn
    · rw [if_neg hn] at he
      exfalso
      have := lastPtr_mem (h := s.header) hn
      rw [← he, e, List.map_append, ← T.ids_eq] at this
      rcases List.mem_append.1 this with h1 | h1
      · grind
      · have := hm _ h1
        grind
  · intro hn
    rw [if_pos hn, lastPtr_append] at he
    simpa [lastPtr] using he

/-! ## Adding a node -/

/-- Allocating a node and linking it at the end of a path. -/
theorem graft_ok (h : Conf s hl hr (f :: fs) .nil) {k : K} {v : V} {w : Node K V → Node K V}
    (hw : ∀ p, w (f.cell p 0) = f.cell p s.next) :
    Ok (do
      let id ← alloc k v
      wr f.id w
      wr id fun n => { n with parent := f.id }
      return id) s fun id s' => id = s.next ∧
        Conf s' hl hr (f :: fs) (.node s.next true .nil k v .nil) ∧ s'.header = s.header ∧ s'.cnt = s.cnt ∧
        s'.next = s.next + 1 := by
  obtain ⟨c1, c2, c3⟩ := h.cx
  obtain ⟨hk, hv, hh⟩ := h.hd
  have hnd := h.nd
  have hnx := h.nx
  have hfresh : s.next ∉ s.header :: (T.nil.ids ++ idsC (f :: fs)) := fun e => Nat.lt_irrefl _ (hnx _ e)
  simp only [T.ids_nil, List.nil_append, idsC_cons, List.mem_cons, List.mem_append, List.cons_append,
    List.nodup_cons, List.nodup_append] at hnd hfresh
  have hfn : f.id ≠ s.next := by grind
  have hhn : s.header ≠ s.next := by grind
  have hhf : s.header ≠ f.id := by grind
  simp only [T.ptr_nil] at c1
  simp only [ok_bind, ok_alloc, ok_wr, set_heap, if_neg hfn, c1, Option.some.injEq, exists_eq_left', hw,
    if_neg hfn.symm, if_true, ok_pure]
  refine ⟨trivial, ⟨?_, ⟨hk, hv, ?_⟩, ?_, ⟨?_, trivial, trivial⟩, ⟨?_, ?_, ?_⟩, ?_, ?_⟩, ?_, ?_, ?_⟩
  · simp only [set_header, T.ids_node, T.ids_nil, List.nil_append, List.cons_append, idsC_cons,
      List.nodup_cons, List.mem_cons, List.mem_append, List.nodup_append]
    have : 0 ≠ s.next := by
      have := hnx s.header (by simp)
      omega
    grind
  · simp [hhn, hhf, hh]
  · simp only [set_root]
    rw [h.rt]
    exact plug_ptr f fs _ _
  · simp
  · simp [hfn]
  · refine c2.congr fun x hx => ?_
    have h1 : x ≠ s.next := by grind
    have h2 : x ≠ f.id := by grind
    simp [h1, h2]
  · refine c3.congr fun x hx => ?_
    have h1 : x ≠ s.next := by grind
    have h2 : x ≠ f.id := by grind
    simp [h1, h2]
  · intro x
    have := h.lv x
    simp only [set_heap, set_header, T.ids_node, T.ids_nil, List.nil_append, List.cons_append, idsC_cons,
      List.mem_cons, List.mem_append] at this ⊢
    by_cases h1 : x = s.next
    · simp [h1]
    · by_cases h2 : x = f.id
      · simp [h2, hfn]
      · simp only [if_neg h1, if_neg h2, this]
        tauto
  · intro x hx
    simp only [set_header, set_next, T.ids_node, T.ids_nil, List.nil_append, List.cons_append, idsC_cons,
      List.mem_cons, List.mem_append] at hx ⊢
    have := hnx x
    simp only [T.ids_nil, List.nil_append, idsC_cons, List.mem_cons, List.mem_append, List.cons_append] at this
    by_cases h1 : x = s.next
    · omega
    · have := this (by tauto)
      omega
  · rfl
  · rfl
  · rfl

theorem extendLeft_ok (h : Conf s hl hr fs t) (p id : Nat) :
    Ok (extendLeft p id) s fun _ s' => Conf s' (if hl = p then id else hl) hr fs t ∧ Same s s' := by
  obtain ⟨hk, hv, hh⟩ := h.hd
  unfold extendLeft
  simp only [ok_bind, ok_theHeader, ok_rd, hh, Option.some.injEq, exists_eq_left']
  split
  · exact wrHeader_ok h fun _ _ _ => rfl
  · exact (ok_pure _ _ _).2 ⟨h, Same.refl _⟩

theorem extendRight_ok (h : Conf s hl hr fs t) (p id : Nat) :
    Ok (extendRight p id) s fun _ s' => Conf s' hl (if hr = p then id else hr) fs t ∧ Same s s' := by
  obtain ⟨hk, hv, hh⟩ := h.hd
  unfold extendRight
  simp only [ok_bind, ok_theHeader, ok_rd, hh, Option.some.injEq, exists_eq_left']
  split
  · exact wrHeader_ok h fun _ _ _ => rfl
  · exact (ok_pure _ _ _).2 ⟨h, Same.refl _⟩

/-- Changing `cnt` only. -/
theorem Conf.setCnt (h : Conf s hl hr fs t) (n : Nat) : Conf { s with cnt := n } hl hr fs t :=
  ⟨h.nd, h.hd, h.rt, h.tr, h.cx, h.lv, h.nx⟩

theorem attachLeft_ok {p c k' v' r} (h : Conf s hl hr fs (.node p c .nil k' v' r)) (k : K) (v : V) :
    Ok (attachLeft p k v) s fun q s' => q = s.next ∧
      Conf s' (if hl = p then s.next else hl) hr []
        (fixI (⟨true, p, c, k', v', r⟩ :: fs) (.node s.next true .nil k v .nil)) ∧
      s'.header = s.header ∧ s'.cnt = s.cnt + 1 ∧ s'.next = s.next + 1 := by
  have h1 := conf_left.1 h
  have hg := graft_ok h1 (k := k) (v := v) (w := fun n => { n with left := s.next }) fun p => rfl
  unfold attachLeft
  simp only [ok_bind, ok_pure, ok_alloc] at hg ⊢
  refine Ok.mono hg ?_
  rintro _ s1 hg1
  refine Ok.mono hg1 ?_
  rintro _ s2 ⟨-, h2, e2, e3, e4⟩
  refine Ok.mono (extendLeft_ok h2 p s.next) ?_
  rintro _ s3 ⟨h3, a1, a2, a3⟩
  rw [ok_fuelled]
  have hfu := h3.fuel
  refine Ok.mono (maintainAfterInsert_ok s3.next h3 (by simp at hfu ⊢; omega)) ?_
  rintro _ s4 ⟨h4, b1, b2, b3⟩
  simp only [countUp, ok_bind, ok_size, ok_setCnt]
  exact ⟨trivial, h4.setCnt _, b1.trans (a1.trans e2), by rw [b2, a2, e3], by
    show s4.next = _
    rw [b3, a3, e4]⟩

theorem attachRight_ok {p c k' v' l} (h : Conf s hl hr fs (.node p c l k' v' .nil)) (k : K) (v : V) :
    Ok (attachRight p k v) s fun q s' => q = s.next ∧
      Conf s' hl (if hr = p then s.next else hr) []
        (fixI (⟨false, p, c, k', v', l⟩ :: fs) (.node s.next true .nil k v .nil)) ∧
      s'.header = s.header ∧ s'.cnt = s.cnt + 1 ∧ s'.next = s.next + 1 := by
  have h1 := conf_right.1 h
  have hg := graft_ok h1 (k := k) (v := v) (w := fun n => { n with right := s.next }) fun p => rfl
  unfold attachRight
  simp only [ok_bind, ok_pure, ok_alloc] at hg ⊢
  refine Ok.mono hg ?_
  rintro _ s1 hg1
  refine Ok.mono hg1 ?_
  rintro _ s2 ⟨-, h2, e2, e3, e4⟩
  refine Ok.mono (extendRight_ok h2 p s.next) ?_
  rintro _ s3 ⟨h3, a1, a2, a3⟩
  rw [ok_fuelled]
  have hfu := h3.fuel
  refine Ok.mono (maintainAfterInsert_ok s3.next h3 (by simp at hfu ⊢; omega)) ?_
  rintro _ s4 ⟨h4, b1, b2, b3⟩
  simp only [countUp, ok_bind, ok_size, ok_setCnt]
  exact ⟨trivial, h4.setCnt _, b1.trans (a1.trans e2), by rw [b2, a2, e3], by
    show s4.next = _
    rw [b3, a3, e4]⟩

/-! ## The map as a sorted list of nodes -/

section Order
variable [LinearOrder K]

/-- `m` is the sorted list of the entries of the map with their addresses; the walk has got to the
subtree `t` at the end of the path `fs`. -/
structure At (s : St K V) (m : List (Nat × K × V)) (fs : List (Frame K V)) (t : T K V) : Prop where
  conf : Conf s (firstPtr s.header m) (lastPtr s.header m) fs t
  ls : (plug fs t).list = m
  rb : ∃ n, CRB fs n ∧ RB t n
  top : t.isRed = true → topBlack fs
  sorted : m.Pairwise fun a b => a.2.1 < b.2.1
  cnt : s.cnt = m.length

/-- The state represents the sorted list `m` of entries. -/
def Rep (s : St K V) (m : List (Nat × K × V)) : Prop := ∃ t, At s m [] t

theorem At.left {m id c l k v r} (h : At s m fs (.node id c l k v r)) :
    At s m (⟨true, id, c, k, v, r⟩ :: fs) l := by
  obtain ⟨h1, h2, ⟨n, h3, h4⟩, h5, h6, h7⟩ := h
  refine ⟨conf_left.1 h1, by rw [plug_cons, fill_true]; exact h2, ?_, ?_, h6, h7⟩
  · cases h4 with
    | red a b c d => exact ⟨_, .red rfl b d (h5 rfl) h3, a⟩
    | black a b => exact ⟨_, .black rfl b h3, a⟩
  · intro e
    cases h4 with
    | red a b c d => rw [c] at e; simp at e
    | black a b => exact rfl

theorem At.right {m id c l k v r} (h : At s m fs (.node id c l k v r)) :
    At s m (⟨false, id, c, k, v, l⟩ :: fs) r := by
  obtain ⟨h1, h2, ⟨n, h3, h4⟩, h5, h6, h7⟩ := h
  refine ⟨conf_right.1 h1, by rw [plug_cons, fill_false]; exact h2, ?_, ?_, h6, h7⟩
  · cases h4 with
    | red a b c d => exact ⟨_, .red rfl a c (h5 rfl) h3, b⟩
    | black a b => exact ⟨_, .black rfl a h3, b⟩
  · intro e
    cases h4 with
    | red a b c d => rw [d] at e; simp at e
    | black a b => exact rfl

/-- The walk down has only passed smaller keys on the left and larger ones on the right. -/
def Between (fs : List (Frame K V)) (k : K) : Prop :=
  (∀ e ∈ pre fs, e.2.1 < k) ∧ ∀ e ∈ post fs, k < e.2.1

theorem Between.nil (k : K) : Between ([] : List (Frame K V)) k := by simp [Between, pre, post]

theorem At.between_left {m id c l k v r} (h : At s m fs (.node id c l k v r)) {k' : K} (hb : Between fs k')
    (hk : k' < k) : Between (⟨true, id, c, k, v, r⟩ :: fs) k' := by
  have hs := h.sorted
  rw [← h.ls, plug_list, T.list_node] at hs
  refine ⟨by simpa [pre] using hb.1, ?_⟩
  intro e he
  simp only [post, if_true, List.cons_append, List.mem_cons, List.mem_append] at he
  rcases he with rfl | he | he
  · exact hk
  · refine lt_trans hk ?_
    simp only [List.pairwise_append, List.pairwise_cons] at hs
    exact hs.1.2.1.2.1.1 e he
  · exact hb.2 e he

theorem At.between_right {m id c l k v r} (h : At s m fs (.node id c l k v r)) {k' : K} (hb : Between fs k')
    (hk : k < k') : Between (⟨false, id, c, k, v, l⟩ :: fs) k' := by
  have hs := h.sorted
  rw [← h.ls, plug_list, T.list_node] at hs
  refine ⟨?_, by simpa [post] using hb.2⟩
  intro e he
  simp only [pre, Bool.false_eq_true, if_false, List.mem_append, List.mem_singleton] at he
  rcases he with he | he | rfl
  · exact hb.1 e he
  · refine lt_trans ?_ hk
    simp only [List.pairwise_append, List.pairwise_cons] at hs
    exact hs.1.2.1.2.2 e he (id, k, v) (by simp)
  · exact hk

/-- What one insertion may do to the list: set a value in place, or add a new address between the
smaller and the larger keys. -/
inductive Put (replace : Bool) (next : Nat) (k : K) (v : V) :
    List (Nat × K × V) → Nat → List (Nat × K × V) → Nat → Prop
  | old {a p v0 b} : Put replace next k v (a ++ (p, k, v0) :: b) p
      (a ++ (p, k, if replace then v else v0) :: b) next
  | new {a b} : (∀ e ∈ a, e.2.1 < k) → (∀ e ∈ b, k < e.2.1) →
      Put replace next k v (a ++ b) next (a ++ (next, k, v) :: b) (next + 1)

theorem sorted_put {a b : List (Nat × K × V)} {q : Nat} {k : K} {v : V}
    (h : (a ++ b).Pairwise fun a b => a.2.1 < b.2.1) (ha : ∀ e ∈ a, e.2.1 < k) (hb : ∀ e ∈ b, k < e.2.1) :
    (a ++ (q, k, v) :: b).Pairwise fun a b => a.2.1 < b.2.1 := by
  rw [List.pairwise_append] at h ⊢
  refine ⟨h.1, List.pairwise_cons.2 ⟨fun e he => hb e he, h.2.1⟩, ?_⟩
  intro e he e' he'
  rcases List.mem_cons.1 he' with rfl | he'
  · exact ha e he
  · exact h.2.2 e he e' he'

theorem attachLeft_rep {m p c k' v' r} (h : At s m fs (.node p c .nil k' v' r)) {k : K} (v : V)
    (hb : Between fs k) (hk : k < k') {b : Bool} :
    Ok (attachLeft p k v) s fun q s' => ∃ m', Rep s' m' ∧ Put b s.next k v m q m' s'.next ∧
      s'.header = s.header := by
  refine Ok.mono (attachLeft_ok h.conf k v) ?_
  rintro q s' ⟨rfl, h1, e1, e2, e3⟩
  obtain ⟨n, h3, h4⟩ := h.left.rb
  have hn := h4.nil_height
  subst hn
  have hm := h.ls
  rw [plug_list, T.list_node] at hm
  have hp := h.conf.first_iff (by rw [h.ls])
  simp only [T.list_nil, List.nil_append, List.append_nil, List.append_assoc] at hm hp
  have hpost : ∀ e ∈ (p, k', v') :: r.list ++ post fs, k < e.2.1 := by
    have := (h.between_left hb hk).2
    simpa [post] using this
  refine ⟨pre fs ++ (s.next, k, v) :: ((p, k', v') :: r.list ++ post fs), ⟨fixI (⟨true, p, c, k', v', r⟩ :: fs) (.node s.next true .nil k v .nil),
    ?_, ?_, ?_, ?_, ?_, ?_⟩, ?_, e1⟩
  · convert h1 using 1
    · rw [e1]
      by_cases e : pre fs = []
      · rw [if_pos (hp.2 e), e]; rfl
      · rw [if_neg (mt hp.1 e), ← hm, firstPtr_append, firstPtr_append, if_neg e, if_neg e]
    · rw [e1]
      subst hm
      rw [lastPtr_append, lastPtr_append, if_neg (by simp), if_neg (by simp)]
      rw [← List.singleton_append, lastPtr_append, if_neg (by simp)]
  · rw [plug_nil, fixI_list _ (by simp)]
    simp [pre, post]
  · obtain ⟨m', h5, h6⟩ := fixI_rb (⟨true, p, c, k', v', r⟩ :: fs) h3
      (t := .node s.next true .nil k v .nil) (.red .nil .nil rfl rfl) rfl
    exact ⟨m', .nil, h5⟩
  · intro e
    obtain ⟨m', h5, h6⟩ := fixI_rb (⟨true, p, c, k', v', r⟩ :: fs) h3
      (t := .node s.next true .nil k v .nil) (.red .nil .nil rfl rfl) rfl
    rw [h6] at e
    simp at e
  · refine sorted_put ?_ hb.1 hpost
    have := h.sorted
    rw [← hm] at this
    simpa using this
  · rw [e2, h.cnt, ← hm]
    simp
    omega
  · rw [e3, ← hm]
    exact .new hb.1 hpost

theorem attachRight_rep {m p c k' v' l} (h : At s m fs (.node p c l k' v' .nil)) {k : K} (v : V)
    (hb : Between fs k) (hk : k' < k) {b : Bool} :
    Ok (attachRight p k v) s fun q s' => ∃ m', Rep s' m' ∧ Put b s.next k v m q m' s'.next ∧
      s'.header = s.header := by
  refine Ok.mono (attachRight_ok h.conf k v) ?_
  rintro q s' ⟨rfl, h1, e1, e2, e3⟩
  obtain ⟨n, h3, h4⟩ := h.right.rb
  have hn := h4.nil_height
  subst hn
  have hm := h.ls
  rw [plug_list, T.list_node] at hm
  have hp := h.conf.last_iff (by rw [h.ls])
  simp only [T.list_nil, List.nil_append] at hp
  have hm : (pre fs ++ l.list ++ [(p, k', v')]) ++ post fs = m := by simpa using hm
  have hpre : ∀ e ∈ pre fs ++ l.list ++ [(p, k', v')], e.2.1 < k := by
    have := (h.between_right hb hk).1
    simpa [pre] using this
  refine ⟨(pre fs ++ l.list ++ [(p, k', v')]) ++ (s.next, k, v) :: post fs, ⟨fixI (⟨false, p, c, k', v', l⟩ :: fs)
    (.node s.next true .nil k v .nil), ?_, ?_, ?_, ?_, ?_, ?_⟩, ?_, e1⟩
  · convert h1 using 1
    · rw [e1]
      subst hm
      have : pre fs ++ l.list ++ [(p, k', v')] ≠ [] := by simp
      rw [firstPtr_append _ (pre fs ++ l.list ++ [(p, k', v')]),
        firstPtr_append _ (pre fs ++ l.list ++ [(p, k', v')]), if_neg this, if_neg this]
    · rw [e1]
      by_cases e : post fs = []
      · rw [if_pos (hp.2 e), e, lastPtr_append]; rfl
      · rw [if_neg (mt hp.1 e), ← hm, lastPtr_append _ _ (post fs), if_neg e, lastPtr_append, if_neg (by simp),
          ← List.singleton_append, lastPtr_append, if_neg e]
  · rw [plug_nil, fixI_list _ (by simp)]
    simp [pre, post]
  · obtain ⟨m', h5, h6⟩ := fixI_rb (⟨false, p, c, k', v', l⟩ :: fs) h3
      (t := .node s.next true .nil k v .nil) (.red .nil .nil rfl rfl) rfl
    exact ⟨m', .nil, h5⟩
  · intro e
    obtain ⟨m', h5, h6⟩ := fixI_rb (⟨false, p, c, k', v', l⟩ :: fs) h3
      (t := .node s.next true .nil k v .nil) (.red .nil .nil rfl rfl) rfl
    rw [h6] at e
    simp at e
  · refine sorted_put ?_ hpre hb.2
    have := h.sorted
    rw [← hm] at this
    exact this
  · rw [e2, h.cnt, ← hm]
    simp
    omega
  · rw [e3, ← hm]
    exact .new hpre hb.2

/-- Writing a value in place. -/
theorem setVal_rep {m p c l k v0 r} (h : At s m fs (.node p c l k v0 r)) (v : V) :
    Ok (wr p fun n => { n with second := v }) s fun _ s' => ∃ a b, m = a ++ (p, k, v0) :: b ∧
      Rep s' (a ++ (p, k, v) :: b) ∧ Same s s' := by
  have := wr_ok h.conf (f := fun n => { n with second := v }) (c' := c) (k' := k) (v' := v) fun _ _ _ => rfl
  refine Ok.mono this ?_
  rintro _ s' ⟨h1, h2⟩
  have hm := h.ls
  rw [plug_list, T.list_node] at hm
  have hm : (pre fs ++ l.list) ++ (p, k, v0) :: (r.list ++ post fs) = m := by simpa using hm
  obtain ⟨n, h3, h4⟩ := h.rb
  have h4' : RB (.node p c l k v r) n := by cases h4 <;> constructor <;> assumption
  obtain ⟨n', h5, h6⟩ := plug_rb h3 h4' h.top
  refine ⟨pre fs ++ l.list, r.list ++ post fs, hm.symm, ⟨plug fs (.node p c l k v r), ?_, ?_, ⟨n', .nil, h5⟩, ?_, ?_, ?_⟩, h2⟩
  · have h1 := (conf_plug.1 h1)
    convert h1 using 1
    · rw [h2.1, ← hm]
      exact firstPtr_congr _ (by simp)
    · rw [h2.1, ← hm]
      exact lastPtr_congr _ (by simp)
  · simp [plug_list]
  · rw [h6]; simp
  · have := h.sorted
    rw [← hm] at this
    refine (List.pairwise_map (f := fun e : Nat × K × V => e.2.1) (R := (· < ·))).1 ?_
    have := (List.pairwise_map (f := fun e : Nat × K × V => e.2.1) (R := (· < ·))).2 this
    simpa using this
  · rw [h2.2.1, h.cnt, ← hm]
    simp

theorem place_ok (b : Bool) (k : K) (v : V) : ∀ (fuel : Nat) {s : St K V} {m fs id c l k' v' r},
    At s m fs (.node id c l k' v' r : T K V) → Between fs k → (T.node id c l k' v' r).ids.length < fuel →
    Ok (place b fuel id k v) s fun q s' => ∃ m', Rep s' m' ∧ Put b s.next k v m q m' s'.next ∧
      s'.header = s.header := by
  intro fuel
  induction fuel with
  | zero => intro _ _ _ _ _ _ _ _ _ _ _ h; omega
  | succ fuel ih =>
    intro s m fs id c l k' v' r h hb hf
    unfold place
    rw [ok_bind, ok_rd]
    refine ⟨_, h.conf.tr.1, ?_⟩
    dsimp only
    simp only [T.ids_node, List.length_append, List.length_cons] at hf
    by_cases hk : k = k'
    · rw [if_pos hk]
      subst hk
      by_cases hb : b = true
      · rw [if_pos hb, ok_bind]
        refine Ok.mono (setVal_rep h v) ?_
        rintro _ s' ⟨x, y, e, h1, h2⟩
        rw [ok_pure]
        refine ⟨_, h1, ?_, h2.1⟩
        rw [h2.2.2, e]
        have := Put.old (replace := b) (next := s.next) (k := k) (v := v) (a := x) (p := id) (v0 := v') (b := y)
        rwa [if_pos hb] at this
      · rw [if_neg hb, ok_pure]
        have hm := h.ls
        rw [plug_list, T.list_node] at hm
        have hm : (pre fs ++ l.list) ++ (id, k, v') :: (r.list ++ post fs) = m := by simpa using hm
        obtain ⟨n, h3, h4⟩ := h.rb
        obtain ⟨n', h5, h6⟩ := plug_rb h3 h4 h.top
        refine ⟨m, ⟨plug fs (.node id c l k v' r), conf_plug.1 h.conf, h.ls, ⟨n', .nil, h5⟩, by rw [h6]; simp,
          h.sorted, h.cnt⟩, ?_, rfl⟩
        have := Put.old (replace := b) (next := s.next) (k := k) (v := v) (a := pre fs ++ l.list) (p := id)
          (v0 := v') (b := r.list ++ post fs)
        rw [if_neg hb, hm] at this
        exact this
    · rw [if_neg hk]
      by_cases hlt : k < k'
      · rw [if_pos hlt]
        cases l with
        | nil => rw [T.ptr_nil, if_pos rfl]; exact attachLeft_rep h v hb hlt
        | node id' c' l' k'' v'' r' =>
          rw [T.ptr_node, if_neg (h.left.conf.ne_zero)]
          exact ih h.left (h.between_left hb hlt) (by omega)
      · rw [if_neg hlt]
        have hgt : k' < k := lt_of_le_of_ne (not_lt.1 hlt) (Ne.symm hk)
        cases r with
        | nil => rw [T.ptr_nil, if_pos rfl]; exact attachRight_rep h v hb hgt
        | node id' c' l' k'' v'' r' =>
          rw [T.ptr_node, if_neg (h.right.conf.ne_zero)]
          exact ih h.right (h.between_right hb hgt) (by omega)

theorem plant_ok (h : At s [] [] (.nil : T K V)) (k : K) (v : V) :
    Ok (plant k v) s fun q s' => q = s.next ∧ Rep s' [(s.next, k, v)] ∧ s'.next = s.next + 1 ∧
      s'.header = s.header := by
  obtain ⟨hk, hv, hh⟩ := h.conf.hd
  have hnx := h.conf.nx s.header (by simp)
  have hhn : s.header ≠ s.next := by omega
  have hnd := h.conf.nd
  have hlv := h.conf.lv
  simp only [T.ids_nil, idsC_nil, List.append_nil, List.nodup_cons, List.mem_cons, List.not_mem_nil, or_false] at hnd hlv
  unfold plant
  simp only [ok_bind, ok_alloc, ok_setRoot, ok_theHeader, ok_wr, set_heap, set_header, if_true, Option.some.injEq,
    exists_eq_left', paint, if_neg hhn, hh, countUp, ok_size, ok_setCnt, ok_pure]
  refine ⟨trivial, ⟨.node s.next false .nil k v .nil, ⟨?_, ⟨hk, hv, ?_⟩, ?_, ⟨?_, trivial, trivial⟩, trivial, ?_, ?_⟩,
    by simp, ⟨1, .nil, .black .nil .nil⟩, by simp, by simp, ?_⟩, ?_, ?_⟩
  · simp
    omega
  · simp [lastPtr]
  · simp
  · simp [hhn.symm]
  · intro x
    have := hlv x
    simp only [set_heap, set_header]
    by_cases h1 : x = s.next
    · simp [h1, hhn.symm]
    · by_cases h2 : x = s.header
      · simp [h2]
      · simp [h1, h2]
        simpa [h2] using this
  · simp
    omega
  · have := h.cnt
    simpa using this
  · simp
  · simp

/-- A represented state is empty exactly if there is no root. -/
theorem Rep.root_iff {m} (h : Rep s m) : s.root = 0 ↔ m = [] := by
  obtain ⟨t, h⟩ := h
  have hr := h.conf.rt
  have hl := h.ls
  rw [plug_nil] at hr hl
  cases t with
  | nil => simpa [hr] using hl.symm
  | node id c l k v r =>
    have := h.conf.ne_zero
    rw [← hl, hr]
    simp [this]

theorem insert_ok {m} (h : Rep s m) (k : K) (v : V) :
    Ok (insert k v) s fun _ s' => ∃ q m', Rep s' m' ∧ Put true s.next k v m q m' s'.next ∧
      s'.header = s.header := by
  unfold insert
  rw [ok_bind, ok_theRoot]
  have hr := h.root_iff
  obtain ⟨t, h⟩ := h
  by_cases e : s.root = 0
  · rw [if_pos e, ok_bind]
    have e1 := hr.1 e
    subst e1
    have : t = .nil := by
      have := h.ls
      cases t <;> simp_all
    subst this
    refine Ok.mono (plant_ok h k v) ?_
    rintro q s' ⟨rfl, h1, h2, h3⟩
    rw [ok_pure]
    refine ⟨s.next, _, h1, ?_, h3⟩
    rw [h2]
    exact Put.new (a := []) (b := []) (by simp) (by simp)
  · rw [if_neg e, ok_bind, ok_fuelled]
    have hrt := h.conf.rt
    rw [plug_nil] at hrt
    cases t with
    | nil => exact absurd hrt e
    | node id c l k' v' r =>
      have hfu := h.conf.fuel
      rw [hrt, T.ptr_node]
      refine Ok.mono (place_ok true k v s.next h (.nil k) (by omega)) ?_
      rintro q s' ⟨m', h1⟩
      rw [ok_pure]
      exact ⟨q, m', h1⟩

theorem getOrDefault_ok [Inhabited V] {m} (h : Rep s m) (k : K) :
    Ok (getOrDefault k) s fun q s' => ∃ m', Rep s' m' ∧ Put false s.next k default m q m' s'.next ∧
      s'.header = s.header := by
  unfold getOrDefault
  rw [ok_bind, ok_theRoot]
  have hr := h.root_iff
  obtain ⟨t, h⟩ := h
  by_cases e : s.root = 0
  · rw [if_pos e]
    have e1 := hr.1 e
    subst e1
    have : t = .nil := by
      have := h.ls
      cases t <;> simp_all
    subst this
    refine Ok.mono (plant_ok h k default) ?_
    rintro q s' ⟨rfl, h1, h2, h3⟩
    refine ⟨_, h1, ?_, h3⟩
    rw [h2]
    exact Put.new (a := []) (b := []) (by simp) (by simp)
  · rw [if_neg e, ok_fuelled]
    have hrt := h.conf.rt
    rw [plug_nil] at hrt
    cases t with
    | nil => exact absurd hrt e
    | node id c l k' v' r =>
      have hfu := h.conf.fuel
      rw [hrt, T.ptr_node]
      exact place_ok false k default s.next h (.nil k) (by omega)

/-- Every entry is at the end of some path. -/
theorem find_path {m p k v} : ∀ {t : T K V} {fs}, At s m fs t → (p, k, v) ∈ t.list →
    ∃ fs c l r, At s m fs (.node p c l k v r)
  | .nil, _, _, hm => by simp at hm
  | .node id c l k' v' r, fs, h, hm => by
    simp only [T.list_node, List.mem_append, List.mem_cons, Prod.mk.injEq] at hm
    rcases hm with hm | ⟨rfl, rfl, rfl⟩ | hm
    · exact find_path h.left hm
    · exact ⟨_, _, _, _, h⟩
    · exact find_path h.right hm

theorem Rep.find {m p k v} (h : Rep s m) (hm : (p, k, v) ∈ m) : ∃ fs c l r, At s m fs (.node p c l k v r) := by
  obtain ⟨t, h⟩ := h
  refine find_path h ?_
  have := h.ls
  rw [plug_nil] at this
  rwa [this]

theorem At.rep {m} (h : At s m fs t) : Rep s m := by
  obtain ⟨n, h3, h4⟩ := h.rb
  obtain ⟨n', h5, h6⟩ := plug_rb h3 h4 h.top
  exact ⟨plug fs t, conf_plug.1 h.conf, h.ls, ⟨n', .nil, h5⟩, by rw [h6]; simp, h.sorted, h.cnt⟩

/-- The list split at the end of a path. -/
theorem At.split {m id c l k v r} (h : At s m fs (.node id c l k v r)) :
    m = (pre fs ++ l.list) ++ (id, k, v) :: (r.list ++ post fs) := by
  rw [← h.ls, plug_list]
  simp

theorem assign_ok [Inhabited V] {m} (h : Rep s m) (k : K) (v : V) :
    Ok (assign k v) s fun _ s' => ∃ q m', Rep s' m' ∧ Put true s.next k v m q m' s'.next ∧
      s'.header = s.header := by
  unfold assign
  rw [ok_bind]
  refine Ok.mono (getOrDefault_ok h k) ?_
  rintro q s1 ⟨m1, h1, h2, h3⟩
  have key : ∀ {a b : List (Nat × K × V)} {v0}, m1 = a ++ (q, k, v0) :: b →
      Ok (wr q fun n => { n with second := v }) s1 fun _ s' => Rep s' (a ++ (q, k, v) :: b) ∧ Same s1 s' := by
    intro a b v0 e
    obtain ⟨fs, c, l, r, h4⟩ := h1.find (p := q) (k := k) (v := v0) (by rw [e]; simp)
    refine Ok.mono (setVal_rep h4 v) ?_
    rintro _ s' ⟨a', b', e', h5, h6⟩
    have hs := h4.sorted
    rw [e] at e'
    have hs' := hs
    rw [e] at hs
    have : a = a' ∧ b = b' := by
      rcases List.append_eq_append_iff.1 e' with ⟨w, e1, e2⟩ | ⟨w, e1, e2⟩
      · cases w with
        | nil => simp_all
        | cons x w =>
          exfalso
          simp only [List.cons_append, List.cons.injEq] at e2
          rw [e2.2] at hs
          simp only [List.pairwise_append, List.pairwise_cons] at hs
          have := hs.2.1.1 (q, k, v0) (by simp)
          exact lt_irrefl _ this
      · cases w with
        | nil => simp_all
        | cons x w =>
          exfalso
          simp only [List.cons_append, List.cons.injEq] at e2
          rw [e1, ← e2.1] at hs
          simp only [List.pairwise_append, List.pairwise_cons] at hs
          have := hs.2.2 (q, k, v0) (by simp) (q, k, v0) (by simp)
          exact lt_irrefl _ this
    rw [this.1, this.2]
    exact ⟨h5, h6⟩
  generalize hn : s1.next = n1 at h2
  cases h2 with
  | @old a p v0 b =>
    refine Ok.mono (key (a := a) (b := b) (v0 := if false = true then default else v0) rfl) ?_
    rintro _ s2 ⟨h5, h6⟩
    refine ⟨q, _, h5, ?_, h6.1.trans h3⟩
    rw [h6.2.2, hn]
    exact .old
  | @new a b ha hb =>
    refine Ok.mono (key rfl) ?_
    rintro _ s2 ⟨h5, h6⟩
    refine ⟨s.next, _, h5, ?_, h6.1.trans h3⟩
    rw [h6.2.2, hn]
    exact .new ha hb

end Order

end Verif.RBTree
