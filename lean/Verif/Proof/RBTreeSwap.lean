import Verif.Proof.RBTreePlace

/-!
Helper lemmas for `RBTree`: the exchange of a node with its successor.
-/
namespace Verif.RBTree

variable {K V : Type} {s : St K V} {hl hr : Nat} {f g : Frame K V} {fs rs : List (Frame K V)} {t : T K V}

theorem plug_append (rs gs : List (Frame K V)) (t : T K V) : plug (rs ++ gs) t = plug gs (plug rs t) := by
  induction rs generalizing t with
  | nil => rfl
  | cons f rs ih => simp [ih]

theorem up_append (h : Nat) (rs : List (Frame K V)) (f : Frame K V) (gs : List (Frame K V)) :
    up h (rs ++ f :: gs) = up f.id rs := by
  cases rs <;> rfl

theorem tr_plug {h : Nat → Option (Node K V)} {par : Nat} {rs : List (Frame K V)} {x : T K V} :
    Tr h par (plug rs x) ↔ Cx h par rs x.ptr ∧ Tr h (up par rs) x := by
  induction rs generalizing x with
  | nil => simp [Cx]
  | cons f rs ih =>
    rw [plug_cons, ih, tr_fill, fill_ptr]
    simp only [Cx, up_cons]
    tauto

theorem ids_plug (rs : List (Frame K V)) (x : T K V) : (plug rs x).ids.Perm (x.ids ++ idsC rs) := by
  induction rs generalizing x with
  | nil => simp
  | cons f rs ih =>
    rw [plug_cons]
    refine (ih _).trans (List.perm_iff_count.2 fun a => ?_)
    unfold Frame.fill
    split
    · simp [List.count_append, List.count_cons]
      try omega
    · simp [List.count_append, List.count_cons]
      try omega

theorem conf_append {gs : List (Frame K V)} :
    Conf s hl hr (rs ++ gs) t ↔ Conf s hl hr gs (plug rs t) := by
  rw [conf_plug, plug_append, ← conf_plug]

theorem T.ptr_eq_zero {t : T K V} (h : 0 ∉ t.ids) : t.ptr = 0 ↔ t = .nil := by
  cases t with
  | nil => simp
  | node id c l k v r =>
    simp at h ⊢
    omega

/-- `maintainRelationship` changes nothing where the parents are right. -/
theorem maintain_noop {par id c l k v r} (h : Tr s.heap par (.node id c l k v r : T K V))
    (Q : Unit → St K V → Prop) : Ok (maintainRelationship id) s Q ↔ Q () s := by
  have key : ∀ {t : T K V}, Tr s.heap id t → ∀ {Q : Unit → St K V → Prop}, Ok (adopt t.ptr id) s Q ↔ Q () s := by
    intro t ht Q
    rw [ok_adopt]
    cases t with
    | nil => simp
    | node i c' l' k' v' r' =>
      have h1 := ht.1
      simp only [T.ptr_node, h1, Option.some.injEq, exists_eq_left']
      have : s.set i (some ⟨c', id, l'.ptr, r'.ptr, k', v'⟩) = s := by
        have : (fun x => if x = i then some ⟨c', id, l'.ptr, r'.ptr, k', v'⟩ else s.heap x) = s.heap := by
          funext x
          split
          · subst_vars; exact h1.symm
          · rfl
        unfold St.set
        rw [this]
      rw [this]
      split <;> simp_all
  obtain ⟨h1, h2, h3⟩ := h
  simp only [maintainRelationship, ok_bind, ok_rd, h1, Option.some.injEq, exists_eq_left', key h2, key h3]

theorem leftmost_ok : ∀ (fuel : Nat) {par : Nat} {t : T K V}, Tr s.heap par t → 0 ∉ t.ids → t ≠ .nil →
    t.ids.length ≤ fuel → ∀ Q, Ok (leftmost fuel t.ptr) s Q ↔ Q (firstPtr 0 t.list) s := by
  intro fuel
  induction fuel with
  | zero =>
    intro par t _ _ hn hf
    cases t <;> simp_all
  | succ fuel ih =>
    intro par t ht h0 hn hf Q
    cases t with
    | nil => exact absurd rfl hn
    | node id c l k v r =>
      obtain ⟨h1, h2, h3⟩ := ht
      have hl0 : 0 ∉ l.ids := fun e => h0 (by simp [e])
      simp only [leftmost, T.ptr_node, ok_bind, ok_rd, h1, Option.some.injEq, exists_eq_left']
      by_cases e : l = .nil
      · subst e
        simp [ok_pure]
      · rw [if_neg (mt (T.ptr_eq_zero hl0).1 e), ih h2 hl0 e (by simp at hf; omega), T.list_node, firstPtr_append,
          if_neg]
        cases l <;> simp_all

theorem rightmost_ok : ∀ (fuel : Nat) {par : Nat} {t : T K V}, Tr s.heap par t → 0 ∉ t.ids → t ≠ .nil →
    t.ids.length ≤ fuel → ∀ Q, Ok (rightmost fuel t.ptr) s Q ↔ Q (lastPtr 0 t.list) s := by
  intro fuel
  induction fuel with
  | zero =>
    intro par t _ _ hn hf
    cases t <;> simp_all
  | succ fuel ih =>
    intro par t ht h0 hn hf Q
    cases t with
    | nil => exact absurd rfl hn
    | node id c l k v r =>
      obtain ⟨h1, h2, h3⟩ := ht
      have hl0 : 0 ∉ r.ids := fun e => h0 (by simp [e])
      simp only [rightmost, T.ptr_node, ok_bind, ok_rd, h1, Option.some.injEq, exists_eq_left']
      by_cases e : r = .nil
      · subst e
        simp [ok_pure, lastPtr]
      · rw [if_neg (mt (T.ptr_eq_zero hl0).1 e), ih h3 hl0 e (by simp at hf; omega), T.list_node,
          lastPtr_append, if_neg (by simp), ← List.singleton_append, lastPtr_append, if_neg]
        cases r <;> simp_all

theorem findSuccessor_ok : ∀ (fuel : Nat) {par : Nat} {t : T K V}, Tr s.heap par t → 0 ∉ t.ids → t ≠ .nil →
    t.ids.length ≤ fuel → ∃ rs q c k v r, t = plug rs (.node q c .nil k v r) ∧ (∀ f ∈ rs, f.lft = true) ∧
      ∀ Q, Ok (findSuccessor fuel t.ptr par) s Q ↔ Q (q, up par rs) s := by
  intro fuel
  induction fuel with
  | zero =>
    intro par t _ _ hn hf
    cases t <;> simp_all
  | succ fuel ih =>
    intro par t ht h0 hn hf
    cases t with
    | nil => exact absurd rfl hn
    | node id c l k v r =>
      obtain ⟨h1, h2, h3⟩ := ht
      have hl0 : 0 ∉ l.ids := fun e => h0 (by simp [e])
      simp only [findSuccessor, T.ptr_node, ok_bind, ok_rd, h1, Option.some.injEq, exists_eq_left']
      by_cases e : l = .nil
      · subst e
        exact ⟨[], id, c, k, v, r, rfl, by simp, fun Q => by simp [ok_pure]⟩
      · obtain ⟨rs, q, c', k', v', r', e1, e2, e3⟩ := ih h2 hl0 e (by simp at hf; omega)
        refine ⟨rs ++ [⟨true, id, c, k, v, r⟩], q, c', k', v', r', ?_, ?_, fun Q => ?_⟩
        · rw [plug_append, ← e1]; rfl
        · intro f hf
          rcases List.mem_append.1 hf with h | h
          · exact e2 f h
          · rw [List.mem_singleton.1 h]
        · rw [if_neg (mt (T.ptr_eq_zero hl0).1 e), e3, up_append]

/-- `getDirection` needs only the path. -/
theorem getDirection_cx {p hdr : Nat} {n : Node K V} (hr : s.root = p ↔ fs = []) (hp : s.heap p = some n)
    (hpar : n.parent = up hdr fs) (hc : Cx s.heap hdr fs p) (ho : p ∉ idsC fs) (h0 : p ≠ 0)
    (Q : Dir → St K V → Prop) : Ok (getDirection p) s Q ↔ Q (dirOf fs) s := by
  unfold RBTree.getDirection RBTree.isRoot
  simp only [ok_bind, ok_theRoot, ok_pure]
  cases fs with
  | nil =>
    have := hr.2 rfl
    simp [this, dirOf, ok_pure]
  | cons f fs =>
    have h1 : s.root ≠ p := fun e => by simpa using hr.1 e
    have h2 := hc.1
    have h3 : f.oth.ptr ≠ p := by
      intro e
      apply ho
      have : f.oth.ptr ≠ 0 := by rw [e]; exact h0
      have := T.ptr_mem this
      rw [e] at this
      simp [this]
    have h4 : (s.root == p) = false := by simp [h1]
    rw [h4]
    simp only [Bool.false_eq_true, if_false, ok_bind, ok_rd, hp, Option.some.injEq, exists_eq_left', hpar, up_cons, h2,
      dirOf, Frame.cell]
    cases hf : f.lft
    · simp [Ne.symm h3, ok_pure]
    · simp [ok_pure]

theorem idsC_append (a b : List (Frame K V)) : idsC (a ++ b) = idsC a ++ idsC b := by
  induction a with
  | nil => rfl
  | cons f a ih => simp [ih]

/-- `relinkBelow` puts another address at the end of a path. -/
theorem relinkBelow_ok {hdr hole q : Nat} {gs : List (Frame K V)} (hc : Cx s.heap hdr (g :: gs) hole)
    (nd : (idsC (g :: gs)).Nodup) :
    Ok (relinkBelow (dirOf (g :: gs)) g.id q) s fun _ s' => Cx s'.heap hdr (g :: gs) q ∧
      Eff (· = g.id) s s' ∧ s'.root = s.root := by
  obtain ⟨h1, h2, h3⟩ := hc
  have hw : ∀ (s' : St K V), s'.heap g.id = some (g.cell (up hdr gs) q) → (∀ x, x ≠ g.id → s'.heap x = s.heap x) →
      Cx s'.heap hdr (g :: gs) q := by
    intro s' e1 e2
    simp only [idsC_cons, List.cons_append, List.nodup_cons, List.mem_append] at nd
    refine ⟨e1, h2.congr fun x hx => e2 x ?_, h3.congr fun x hx => e2 x ?_⟩
    · rintro rfl; exact nd.1 (.inl hx)
    · rintro rfl; exact nd.1 (.inr hx)
  cases hg : g.lft
  · have hd : dirOf (g :: gs) = .right := by simp [dirOf, hg]
    rw [hd, relinkBelow, ok_wr]
    exact ⟨_, h1, hw _ (by simp [Frame.cell, hg]) (by intro x hx; simp [hx]), eff_set h1, rfl⟩
  · have hd : dirOf (g :: gs) = .left := by simp [dirOf, hg]
    rw [hd, relinkBelow, ok_wr]
    exact ⟨_, h1, hw _ (by simp [Frame.cell, hg]) (by intro x hx; simp [hx]), eff_set h1, rfl⟩

set_option maxHeartbeats 1000000 in
/-- The exchange of a node having two children with its successor. -/
theorem swap_ok {p c l k v r} (h : Conf s hl hr fs (.node p c l k v r)) (hr0 : r ≠ .nil) :
    Ok (swapWithSuccessor p) s fun _ s' => ∃ rs q c' k' v' r', r = plug rs (.node q c' .nil k' v' r') ∧
      (∀ f ∈ rs, f.lft = true) ∧
      Conf s' hl hr (rs ++ ⟨false, q, c, k', v', l⟩ :: fs) (.node p c' .nil k v r') ∧ Same s s' := by
  have hnd := h.nd
  have h0 : 0 ∉ r.ids := by
    simp only [T.ids_node, List.nodup_cons, List.mem_append, List.mem_cons] at hnd
    tauto
  have hfu := h.fuel
  obtain ⟨t1, tl, tr⟩ := h.tr
  obtain ⟨hk, hv, hh⟩ := h.hd
  obtain ⟨rs, q, qc, qk, qv, qr, e1, e2, e3⟩ := findSuccessor_ok s.next tr h0 hr0 (by simp at hfu; omega)
  -- the path to the successor
  have hq : Conf s hl hr (rs ++ ⟨false, p, c, k, v, l⟩ :: fs) (.node q qc .nil qk qv qr) := by
    rw [conf_append, ← e1]
    exact conf_right.1 h
  have hperm : (0 :: s.header :: p :: q :: (qr.ids ++ l.ids ++ idsC rs ++ idsC fs)).Nodup := by
    refine (List.Perm.nodup_iff (List.perm_iff_count.2 fun a => ?_)).1 hq.nd
    simp [List.count_append, List.count_cons, idsC_append]
    try omega
  have hrp : ∀ x, x ∈ (plug rs (.node p qc .nil k v qr)).ids ↔ x = p ∨ x ∈ qr.ids ∨ x ∈ idsC rs := by
    intro x
    rw [(ids_plug rs _).mem_iff]
    simp only [T.ids_node, T.ids_nil, List.nil_append, List.cons_append, List.mem_cons, List.mem_append]
  have hrp' : (plug rs (.node p qc .nil k v qr)).ids.Nodup := by
    refine (ids_plug rs _).nodup_iff.2 ?_
    simp only [T.ids_node, T.ids_nil, List.nil_append, List.nodup_cons, List.nodup_append, List.mem_append, List.mem_cons,
      List.cons_append, List.append_assoc] at hperm ⊢
    grind
  simp only [List.nodup_cons, List.nodup_append, List.mem_append, List.mem_cons, List.append_assoc] at hperm
  have hpq : p ≠ q := by grind
  obtain ⟨u1, -, u2⟩ := hq.tr
  have hpar : up s.header (rs ++ ⟨false, p, c, k, v, l⟩ :: fs) = up p rs := up_append _ _ _ _
  rw [hpar] at u1
  -- first write: the parent of the successor
  have hcx := hq.cx
  have hr1 : ∃ (g : Frame K V) (gs : List (Frame K V)),
      rs ++ ⟨false, p, c, k, v, l⟩ :: fs = g :: gs ∧ g.id = up p rs := by
    cases rs with
    | nil => exact ⟨_, _, rfl, rfl⟩
    | cons g rs => exact ⟨_, _, rfl, rfl⟩
  obtain ⟨g, gs, eg, egi⟩ := hr1
  unfold swapWithSuccessor
  simp only [ok_bind, ok_rd, t1, Option.some.injEq, exists_eq_left', ok_fuelled, e3, hq.getDirection]
  rw [u1]
  simp only [Option.some.injEq, exists_eq_left']
  have hgn : (idsC (g :: gs)).Nodup := by
    rw [← eg]
    have := hq.nd
    simp only [List.nodup_cons, List.nodup_append] at this
    exact this.2.2.2.1
  rw [eg] at hcx
  have hA := relinkBelow_ok (q := p) hcx hgn
  rw [egi, ← eg] at hA
  refine Ok.mono hA ?_
  rintro _ s1 ⟨c1, f1, r1⟩
  clear hA
  obtain ⟨f1a, f1b, f1c⟩ := f1
  have hup : ∀ x, x ∉ idsC rs → x ≠ p → x ≠ up p rs := by
    rintro x h1 h2 rfl
    cases rs with
    | nil => exact h2 rfl
    | cons g rs => exact h1 (by simp)
  -- what it leaves
  have key1 : s1.heap p = some ⟨c, up s.header fs, l.ptr, (plug rs (.node p qc .nil k v qr)).ptr, k, v⟩ ∧
      Cx s1.heap p rs p ∧ Cx s1.heap s.header fs p ∧ Tr s1.heap p l := by
    cases rs with
    | nil =>
      obtain ⟨d1, d2, d3⟩ := c1
      exact ⟨d1, trivial, d3, d2⟩
    | cons g' rs =>
      rw [List.cons_append] at c1
      obtain ⟨d1, d2, d3⟩ := c1
      have hne : p ≠ g'.id := by
        simp only [idsC_cons, List.mem_append, List.mem_cons, List.cons_append] at hperm
        grind
      refine ⟨?_, ?_, ?_, ?_⟩
      · rw [f1a p (by simpa using hne), t1, e1]
        rw [plug_ptr g' rs _ (.node p qc .nil k v qr)]
      · refine ⟨?_, d2, ?_⟩
        · rw [d1, up_append]
        · have hcx2 := hq.cx
          have : ∀ (rs : List (Frame K V)) (i : Nat) (h : Nat → Option (Node K V)),
              Cx h s.header (rs ++ ⟨false, p, c, k, v, l⟩ :: fs) i → Cx h p rs i := by
            intro rs
            induction rs with
            | nil => intro i h _; trivial
            | cons f rs ih =>
              intro i h hc
              rw [List.cons_append] at hc
              refine ⟨?_, hc.2.1, ih _ _ hc.2.2⟩
              rw [hc.1, up_append]
          exact this _ _ _ d3
      · refine h.cx.congr fun x hx => f1a x ?_
        refine hup x ?_ ?_ <;> grind
      · refine tl.congr fun x hx => f1a x ?_
        refine hup x ?_ ?_ <;> grind
  clear c1
  obtain ⟨a1, a2, a3, a4⟩ := key1
  have a5 : s1.heap q = some ⟨qc, up p rs, 0, qr.ptr, qk, qv⟩ := by
    rw [f1a q (hup q (by grind) (by grind)), u1]
    rfl
  have a6 : Tr s1.heap q qr := u2.congr fun x hx => f1a x (hup x (by grind) (by grind))
  have a7 : s1.heap s1.header = some ⟨true, s1.root, hl, hr, hk, hv⟩ := by
    rw [f1c.1, f1a s.header (hup _ (by grind) (by grind)), r1, hh]
  have hroot : s1.root = p ↔ fs = [] := by
    rw [r1, h.rt]
    constructor
    · intro e
      cases fs with
      | nil => rfl
      | cons f fs =>
        have := plug_ptr_mem f fs (.node p c l k v r)
        rw [e] at this
        exfalso
        grind
    · rintro rfl; rfl
  rw [getDirection_cx hroot a1 rfl a3 (by grind) (by grind), ← f1c.1]
  rw [← f1c.1] at a3
  have hB := relink_ok (q := q) a3 a7 (by rw [f1c.1]; simp only [List.nodup_cons]; grind)
  refine Ok.mono hB ?_
  rintro _ s2 ⟨b1, b2, b3, b4, b5, b6⟩
  clear hB
  rw [f1c.1] at b4
  have b7 : ∀ x, x ≠ s.header → x ∉ idsC fs → s2.heap x = s1.heap x := fun x h1 h2 => b4 x (by simp [h1, h2])
  have hh2 : s2.header = s.header := b6.1.trans f1c.1
  unfold swapLinks
  have d1 : s2.heap p = some ⟨c, up s.header fs, l.ptr, (plug rs (.node p qc .nil k v qr)).ptr, k, v⟩ := by
    rw [b7 p (by grind) (by grind), a1]
  have d2 : s2.heap q = some ⟨qc, up p rs, 0, qr.ptr, qk, qv⟩ := by
    rw [b7 q (by grind) (by grind), a5]
  simp only [ok_bind, ok_rd, d1, d2, ok_wr, Option.some.injEq, exists_eq_left', set_heap, if_neg hpq.symm]
  generalize hs3 : (s2.set p (some ⟨qc, up p rs, 0, qr.ptr, k, v⟩)).set q
    (some ⟨c, up s.header fs, l.ptr, (plug rs (.node p qc .nil k v qr)).ptr, qk, qv⟩) = s3
  have g1 : s3.heap p = some ⟨qc, up p rs, 0, qr.ptr, k, v⟩ := by rw [← hs3]; simp [hpq]
  have g2 : s3.heap q = some ⟨c, up s.header fs, l.ptr, (plug rs (.node p qc .nil k v qr)).ptr, qk, qv⟩ := by
    rw [← hs3]; simp
  have g3 : ∀ x, x ≠ p → x ≠ q → s3.heap x = s2.heap x := by
    intro x h1 h2
    rw [← hs3]; simp [h1, h2]
  have g4 : s3.header = s2.header ∧ s3.root = s2.root ∧ s3.cnt = s2.cnt ∧ s3.next = s2.next := by
    rw [← hs3]; exact ⟨rfl, rfl, rfl, rfl⟩
  clear hs3
  have g5 : ∀ x, x ≠ p → x ≠ q → x ≠ s.header → x ∉ idsC fs → s3.heap x = s1.heap x := by
    intro x h1 h2 h3 h4
    rw [g3 x h1 h2, b7 x h3 h4]
  have m1 := maintain_ok (l := .nil) (r := qr) (q := 0) (q' := q) g1 trivial
    (a6.congr fun x hx => g5 x (by grind) (by grind) (by grind) (by grind))
    (by simp only [T.ids_nil, List.nil_append, List.nodup_cons, List.mem_cons]; grind)
  refine Ok.mono m1 ?_
  rintro _ s4 ⟨-, i1, ⟨i2, i3, i4⟩, i5⟩
  clear m1
  have i6 : ∀ x, x ∉ qr.ids → s4.heap x = s3.heap x := fun x hx => i2 x (by simp [hx])
  have j1 : Tr s4.heap p (plug rs (.node p qc .nil k v qr)) := by
    rw [tr_plug]
    refine ⟨a2.congr fun x hx => ?_, ?_, trivial, i1⟩
    · rw [i6 x (by grind), g5 x (by grind) (by grind) (by grind) (by grind)]
    · rw [i6 p (by grind), g1]; rfl
  have m2 := maintain_ok (l := l) (r := plug rs (.node p qc .nil k v qr)) (q := p) (q' := p)
    (by rw [i6 q (by grind)]; exact g2)
    (a4.congr fun x hx => by
      rw [i6 x (by grind), g5 x (by grind) (by grind) (by grind) (by grind)]) j1
    (by
      simp only [List.nodup_cons, List.nodup_append, List.mem_append, List.mem_cons, hrp]
      refine ⟨?_, ?_, ?_, hrp', ?_⟩ <;> grind)
  refine Ok.mono m2 ?_
  rintro _ s5 ⟨k1, k2, ⟨k3, k4, k5⟩, k6⟩
  clear m2
  -- the last call changes nothing
  have hlast : ∀ Q, Ok (maintainRelationship (up p rs)) s5 Q ↔ Q () s5 := by
    intro Q
    cases rs with
    | nil => exact maintain_noop k2 Q
    | cons g' rs =>
      have := (tr_plug.1 (by rw [plug_cons] at k2; exact k2)).2
      unfold Frame.fill at this
      split at this
      · exact maintain_noop this Q
      · exact maintain_noop this Q
  rw [hlast]
  refine ⟨rs, q, qc, qk, qv, qr, e1, e2, ?_, ?_⟩
  · rw [conf_append]
    refine conf_right.1 ?_
    have hhd : s5.header = s.header := k5.1.trans (i4.1.trans (g4.1.trans hh2))
    have hrt : s5.root = s2.root := k6.trans (i5.trans g4.2.1)
    have k7 : ∀ x, x ∉ l.ids → x ≠ p → x ∉ qr.ids → x ∉ idsC rs → s5.heap x = s4.heap x := fun x h1 h2 h3 h4 =>
      k3 x (by rw [hrp]; tauto)
    have hpm : (s.header :: ((T.node q qc .nil qk qv qr).ids ++
        idsC (rs ++ ⟨false, p, c, k, v, l⟩ :: fs))).Perm
        (s.header :: ((T.node q c l qk qv (plug rs (.node p qc .nil k v qr))).ids ++ idsC fs)) := by
      refine List.perm_iff_count.2 fun a => ?_
      have := List.perm_iff_count.1 (ids_plug rs (.node p qc .nil k v qr)) a
      simp [List.count_append, List.count_cons, idsC_append] at this ⊢
      omega
    refine ⟨?_, ⟨hk, hv, ?_⟩, ?_, ⟨?_, k1, k2⟩, ?_, ?_, ?_⟩
    · rw [hhd]
      exact (List.Perm.nodup_iff (hpm.cons 0)).1 hq.nd
    · rw [hhd, hrt, k7 _ (by grind) (by grind) (by grind) (by grind), i6 _ (by grind), g3 _ (by grind) (by grind),
        ← hh2, b2]
    · rw [hrt, b3, r1, h.rt]
      cases fs with
      | nil => rfl
      | cons f fs => exact plug_ptr f fs _ _
    · rw [k7 _ (by grind) (by grind) (by grind) (by grind), i6 _ (by grind), g2, hhd]
    · rw [hhd]
      have b1' : Cx s2.heap s.header fs q := by rw [← hh2]; exact b1
      refine b1'.congr fun x hx => ?_
      rw [k7 _ (by grind) (by grind) (by grind) (by grind), i6 _ (by grind), g3 _ (by grind) (by grind)]
    · intro x
      have hl3 : s3.heap x ≠ none ↔ s2.heap x ≠ none := by
        by_cases x1 : x = p
        · rw [x1, g1, d1]; simp
        · by_cases x2 : x = q
          · rw [x2, g2, d2]; simp
          · rw [g3 x x1 x2]
      rw [k4, i3, hl3, b5, f1b, hq.lv, hhd]
      exact hpm.mem_iff
    · intro x hx
      have : s5.next = s.next := by rw [k5.2.2, i4.2.2, g4.2.2.2, b6.2.2, f1c.2.2]
      rw [this]
      refine hq.nx x ?_
      rw [hhd] at hx
      exact hpm.mem_iff.2 hx
  · exact ⟨k5.1.trans (i4.1.trans (g4.1.trans hh2)), by rw [k5.2.1, i4.2.1, g4.2.2.1, b6.2.1, f1c.2.1],
      by rw [k5.2.2, i4.2.2, g4.2.2.2, b6.2.2, f1c.2.2]⟩

end Verif.RBTree
