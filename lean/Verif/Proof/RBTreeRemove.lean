import Verif.Proof.RBTreeBalance

/-!
Helper lemmas for `RBTree`: `maintainAfterRemove` on the heap.
-/
namespace Verif.RBTree

variable {K V : Type} {s : St K V} {hl hr : Nat} {f g : Frame K V} {fs : List (Frame K V)} {t : T K V}

theorem Conf.othTr (h : Conf s hl hr (f :: fs) t) : Tr s.heap f.id f.oth := h.cx.2.1

theorem tr_cell {h : Nat → Option (Node K V)} {q id c l k v r} (ht : Tr h q (.node id c l k v r)) :
    h id = some ⟨c, q, l.ptr, r.ptr, k, v⟩ := ht.1

theorem Conf.zero_not_mem (h : Conf s hl hr fs t) : 0 ∉ t.ids ++ idsC fs := by
  have := h.nd
  simp only [List.nodup_cons, List.mem_cons] at this
  exact fun e => this.1 (.inr e)

theorem isBlackOrNull_ok {q : Nat} (ht : Tr s.heap q t) (h0 : 0 ∉ t.ids) (Q : Bool → St K V → Prop) :
    Ok (isBlackOrNull t.ptr) s Q ↔ Q (!t.isRed) s := by
  unfold isBlackOrNull
  cases t with
  | nil => simp [ok_pure]
  | node id c l k v r =>
    have : id ≠ 0 := by
      rintro rfl
      exact h0 (by simp)
    simp [this, ok_bind, ok_rd, tr_cell ht, ok_pure]

/-- Case 1 on the path: the sibling becomes black. -/
def rotRed (f : Frame K V) (fs : List (Frame K V)) : Frame K V × List (Frame K V) :=
  match f.oth with
  | .node si true sl sk sv sr =>
    if f.lft then ({ f with red := true, oth := sl }, ⟨true, si, false, sk, sv, sr⟩ :: fs)
    else ({ f with red := true, oth := sr }, ⟨false, si, false, sk, sv, sl⟩ :: fs)
  | _ => (f, fs)

theorem redSibling_ok {id c l k v r si sl sk sv sr} {n : Nat}
    (h : Conf s hl hr (f :: fs) (.node id c l k v r)) (ho : f.oth = .node si true sl sk sv sr)
    (hb : f.red = false) (hsl : RB sl (n + 1)) (hsl' : sl.isRed = false) (hsr : RB sr (n + 1))
    (hsr' : sr.isRed = false) :
    Ok (redSibling id si (dirOf (f :: fs))) s fun p s' =>
      Conf s' hl hr ((rotRed f fs).1 :: (rotRed f fs).2) (.node id c l k v r) ∧ Same s s' ∧
        p = (rotRed f fs).1.oth.ptr := by
  have h1 := h.othTr
  rw [ho] at h1
  obtain ⟨t1, t2, t3⟩ := h1
  obtain ⟨b, fi, fc, fk, fv, fo⟩ := f
  simp only at hb ho
  subst hb ho
  unfold redSibling
  cases sl with
  | nil => exact absurd hsl.nil_height (by simp)
  | node li lc ll lk lv lr =>
  cases sr with
  | nil => exact absurd hsr.nil_height (by simp)
  | node ri rc rl rk rv rr =>
  simp only [T.isRed_node] at hsl' hsr'
  subst hsl' hsr'
  simp only [T.ptr_node] at t1
  simp only [ok_bind, ok_rd, h.cell, Option.some.injEq, exists_eq_left', up_cons, h.cellUp, cell_red, t1,
    ok_assert, t2.1, t3.1, rotateSameDirection, Bool.not_false, true_and]
  have h2 := conf_fill.2 h
  cases b
  · simp only [dirOf, Bool.false_eq_true, if_false, reduceCtorEq, fill_false] at h2 ⊢
    refine ⟨rfl, Ok.mono (rotateRight_ok h2) ?_⟩
    rintro _ s1 ⟨h3, e3⟩
    refine Ok.mono (paint_ok false h3) ?_
    rintro _ s2 ⟨h4, e4⟩
    replace h4 := conf_right.1 h4
    refine Ok.mono (paint_ok true h4) ?_
    rintro _ s3 ⟨h5, e5⟩
    replace h5 := conf_right.1 h5
    rw [h5.getSibling]
    exact ⟨h5, (e3.trans e4).trans e5, rfl⟩
  · simp only [dirOf, if_true, fill_true] at h2 ⊢
    refine ⟨rfl, Ok.mono (rotateLeft_ok h2) ?_⟩
    rintro _ s1 ⟨h3, e3⟩
    refine Ok.mono (paint_ok false h3) ?_
    rintro _ s2 ⟨h4, e4⟩
    replace h4 := conf_left.1 h4
    refine Ok.mono (paint_ok true h4) ?_
    rintro _ s3 ⟨h5, e5⟩
    replace h5 := conf_left.1 h5
    rw [h5.getSibling]
    exact ⟨h5, (e3.trans e4).trans e5, rfl⟩

theorem blackSibling_ok {id c l k v r} {n : Nat}
    (h : Conf s hl hr (f :: fs) (.node id c l k v r)) (hc : CRB (f :: fs) (n + 1)) :
    Ok (blackSibling id (dirOf (f :: fs))) s fun p s' =>
      Conf s' hl hr ((rotRed f fs).1 :: (rotRed f fs).2) (.node id c l k v r) ∧ Same s s' ∧
        p = (rotRed f fs).1.oth.ptr := by
  unfold blackSibling
  rw [ok_bind, h.getSibling]
  cases ho : f.oth with
  | nil =>
    cases hc with
    | black _ h1 _ => rw [ho] at h1; exact absurd h1.nil_height (by simp)
    | red _ h1 _ _ _ => rw [ho] at h1; exact absurd h1.nil_height (by simp)
  | node si sc sl sk sv sr =>
    have h1 := h.othTr
    rw [ho] at h1
    simp only [T.ptr_node, ok_bind, ok_rd, h1.1, Option.some.injEq, exists_eq_left']
    cases sc
    · simp only [Bool.false_eq_true, if_false, ok_pure]
      have : rotRed f fs = (f, fs) := by unfold rotRed; rw [ho]
      rw [this]
      exact ⟨h, Same.refl _, by rw [ho]; rfl⟩
    · simp only [if_true]
      cases hc with
      | red _ h1 h2 _ _ => rw [ho] at h2; simp at h2
      | black hf h1 _ =>
        rw [ho] at h1
        obtain ⟨a1, a2, a3, a4⟩ := h1.redParts
        exact redSibling_ok h ho hf a1 a3 a2 a4

theorem closeRed_ok {id c l k v r si sl sk sv sr ci cl ck cv cr}
    (h : Conf s hl hr (f :: fs) (.node id c l k v r)) (ho : f.oth = .node si false sl sk sv sr)
    (hcl : (if f.lft then sl else sr) = .node ci true cl ck cv cr) :
    Ok (closeRed id si ci (dirOf (f :: fs))) s fun p s' =>
      Conf s' hl hr (⟨f.lft, f.id, f.red, f.k, f.v,
        if f.lft then .node ci false cl ck cv (.node si true cr sk sv sr)
        else .node ci false (.node si true sl sk sv cl) ck cv cr⟩ :: fs) (.node id c l k v r) ∧ Same s s' ∧
        p = ci := by
  obtain ⟨b, fi, fc, fk, fv, fo⟩ := f
  simp only at ho hcl
  subst ho
  have h2 := conf_turn.2 h
  unfold closeRed rotateOppositeDirection
  cases b
  · simp only [Bool.false_eq_true, if_false] at hcl
    subst hcl
    simp only [ok_bind, ok_assert, dirOf, Bool.false_eq_true, if_false, reduceCtorEq] at h2 ⊢
    refine ⟨rfl, Ok.mono (rotateLeft_ok h2) ?_⟩
    rintro _ s1 ⟨h3, e3⟩
    refine Ok.mono (paint_ok false h3) ?_
    rintro _ s2 ⟨h4, e4⟩
    replace h4 := conf_left.1 h4
    refine Ok.mono (paint_ok true h4) ?_
    rintro _ s3 ⟨h5, e5⟩
    have h6 := conf_fill.2 h5
    rw [fill_true] at h6
    have h7 : Conf s3 hl hr (⟨false, fi, fc, fk, fv,
      .node ci false (.node si true sl sk sv cl) ck cv cr⟩ :: fs) (.node id c l k v r) := conf_turn.1 h6
    rw [h7.getSibling]
    exact ⟨h7, (e3.trans e4).trans e5, rfl⟩
  · simp only [if_true] at hcl
    subst hcl
    simp only [ok_bind, ok_assert, dirOf, if_true] at h2 ⊢
    refine ⟨rfl, Ok.mono (rotateRight_ok h2) ?_⟩
    rintro _ s1 ⟨h3, e3⟩
    refine Ok.mono (paint_ok false h3) ?_
    rintro _ s2 ⟨h4, e4⟩
    replace h4 := conf_right.1 h4
    refine Ok.mono (paint_ok true h4) ?_
    rintro _ s3 ⟨h5, e5⟩
    have h6 := conf_fill.2 h5
    rw [fill_false] at h6
    have h7 : Conf s3 hl hr (⟨true, fi, fc, fk, fv,
      .node ci false cl ck cv (.node si true cr sk sv sr)⟩ :: fs) (.node id c l k v r) := conf_turn.1 h6
    rw [h7.getSibling]
    exact ⟨h7, (e3.trans e4).trans e5, rfl⟩

theorem distantRed_ok {id c l k v r si sl sk sv sr}
    (h : Conf s hl hr (f :: fs) (.node id c l k v r)) (ho : f.oth = .node si false sl sk sv sr)
    (hcl : (if f.lft then sl else sr).isRed = false) (hd : (if f.lft then sr else sl).isRed = true) :
    Ok (distantRed id si (dirOf (f :: fs))) s fun _ s' =>
      Conf s' hl hr ({ f with red := false, oth := if f.lft then sl else sr } ::
        ⟨f.lft, si, f.red, sk, sv, (if f.lft then sr else sl).paint false⟩ :: fs) (.node id c l k v r) ∧
        Same s s' := by
  have h1 := h.othTr
  rw [ho] at h1
  have h0 := h.zero_not_mem
  obtain ⟨b, fi, fc, fk, fv, fo⟩ := f
  simp only at ho hcl hd
  subst ho
  simp only [T.ids_node, idsC_cons, List.mem_append, List.mem_cons] at h0
  have h2 := conf_fill.2 h
  unfold distantRed closeNephew distantNephew rotateSameDirection
  cases b
  · simp only [Bool.false_eq_true, if_false] at hcl hd ⊢
    cases sl with
    | nil => simp at hd
    | node di dc dl dk dv dr =>
    simp only [T.isRed_node] at hd
    subst hd
    simp only [fill_false] at h2
    have c1 := h1.1
    have c2 := h1.2.1.1
    simp only [T.ptr_node] at c1
    simp only [ok_bind, ok_rd, c1, Option.some.injEq, exists_eq_left', dirOf, Bool.false_eq_true, if_false,
      reduceCtorEq, ok_pure, isBlackOrNull_ok h1.2.2 (by grind), c2, ok_assert, hcl, h.cell, up_cons]
    refine ⟨rfl, trivial, rfl, Ok.mono (rotateRight_ok h2) ?_⟩
    rintro _ s1 ⟨h3, e3⟩
    have h4 := h3
    replace h4 := conf_right.1 h4
    have h5 := h4
    replace h5 := conf_right.1 h5
    simp only [h5.cell, Option.some.injEq, exists_eq_left', up_cons, h4.cell]
    refine Ok.mono (paint_ok fc h3) ?_
    rintro _ s2 ⟨h6, e6⟩
    replace h6 := conf_right.1 h6
    refine Ok.mono (paint_ok false h6) ?_
    rintro _ s3 ⟨h8, e8⟩
    refine Ok.mono (paintOth_ok false h8 (by simp)) ?_
    rintro _ s4 ⟨h9, e9⟩
    refine ⟨?_, ((e3.trans e6).trans e8).trans e9⟩
    replace h9 := conf_right.1 h9
    exact h9
  · simp only [if_true] at hcl hd ⊢
    cases sr with
    | nil => simp at hd
    | node di dc dl dk dv dr =>
    simp only [T.isRed_node] at hd
    subst hd
    simp only [fill_true] at h2
    have c1 := h1.1
    have c2 := h1.2.2.1
    simp only [T.ptr_node] at c1
    simp only [ok_bind, ok_rd, c1, Option.some.injEq, exists_eq_left', dirOf, if_true, ok_pure, isBlackOrNull_ok h1.2.1 (by grind), c2, ok_assert, hcl, h.cell, up_cons]
    refine ⟨rfl, trivial, rfl, Ok.mono (rotateLeft_ok h2) ?_⟩
    rintro _ s1 ⟨h3, e3⟩
    have h4 := h3
    replace h4 := conf_left.1 h4
    have h5 := h4
    replace h5 := conf_left.1 h5
    simp only [h5.cell, Option.some.injEq, exists_eq_left', up_cons, h4.cell]
    refine Ok.mono (paint_ok fc h3) ?_
    rintro _ s2 ⟨h6, e6⟩
    replace h6 := conf_left.1 h6
    refine Ok.mono (paint_ok false h6) ?_
    rintro _ s3 ⟨h8, e8⟩
    refine Ok.mono (paintOth_ok false h8 (by simp)) ?_
    rintro _ s4 ⟨h9, e9⟩
    refine ⟨?_, ((e3.trans e6).trans e8).trans e9⟩
    replace h9 := conf_left.1 h9
    exact h9

theorem rotRed_black {n : Nat} (hc : CRB (f :: fs) (n + 1)) :
    ∃ si sl sk sv sr, (rotRed f fs).1.oth = .node si false sl sk sv sr ∧
      fixD (f :: fs) = fixBlack (rotRed f fs).1 (rotRed f fs).2 (fixD fs) ∧
      CRB ((rotRed f fs).1 :: (rotRed f fs).2) (n + 1) ∧ ((rotRed f fs).1.red = false → rotRed f fs = (f, fs)) := by
  obtain ⟨b, fi, fc, fk, fv, fo⟩ := f
  cases fo with
  | nil =>
    cases hc with
    | black _ h1 _ => exact absurd h1.nil_height (by simp)
    | red _ h1 _ _ _ => exact absurd h1.nil_height (by simp)
  | node si sc sl sk sv sr =>
    cases sc
    · exact ⟨si, sl, sk, sv, sr, rfl, rfl, hc, fun _ => rfl⟩
    · cases hc with
      | red _ h1 h2 _ _ => simp at h2
      | black hf h1 hc =>
        obtain ⟨a1, a2, a3, a4⟩ := h1.redParts
        cases b
        · cases sr with
          | nil => exact absurd a2.nil_height (by simp)
          | node ri rc rl rk rv rr =>
            simp only [T.isRed_node] at a4
            subst a4
            exact ⟨_, _, _, _, _, rfl, (by simp only [fixD, rotRed, Bool.false_eq_true, if_false, if_true]; refine fixBlack_above _ _ _ _ ?_; rfl),
              .red rfl a2 rfl rfl (.black rfl a1 hc), fun h => by cases h⟩
        · cases sl with
          | nil => exact absurd a1.nil_height (by simp)
          | node ri rc rl rk rv rr =>
            simp only [T.isRed_node] at a3
            subst a3
            exact ⟨_, _, _, _, _, rfl, (by simp only [fixD, rotRed, Bool.false_eq_true, if_false, if_true]; refine fixBlack_above _ _ _ _ ?_; rfl),
              .red rfl a1 rfl rfl (.black rfl a2 hc), fun h => by cases h⟩

theorem fixBlack_distant {si sl sk sv sr} {above : List (Frame K V)} (ho : f.oth = .node si false sl sk sv sr)
    (hcl : (if f.lft then sl else sr).isRed = false) (hd : (if f.lft then sr else sl).isRed = true) :
    fixBlack f fs above = { f with red := false, oth := if f.lft then sl else sr } ::
        ⟨f.lft, si, f.red, sk, sv, (if f.lft then sr else sl).paint false⟩ :: fs := by
  obtain ⟨b, fi, fc, fk, fv, fo⟩ := f
  simp only at ho hcl hd
  subst ho
  unfold fixBlack
  simp only
  rw [if_neg (by simp [hd])]
  generalize (if b = true then sl else sr) = x at hcl ⊢
  cases x with
  | nil => rfl
  | node => simp only [T.isRed_node] at hcl; subst hcl; rfl

theorem fixBlack_close {si sl sk sv sr ci cl ck cv cr} {above : List (Frame K V)}
    (ho : f.oth = .node si false sl sk sv sr) (hcl : (if f.lft then sl else sr) = .node ci true cl ck cv cr) :
    fixBlack f fs above = if f.lft then
        { f with red := false, oth := cl } :: ⟨true, ci, f.red, ck, cv, .node si false cr sk sv sr⟩ :: fs
      else
        { f with red := false, oth := cr } :: ⟨false, ci, f.red, ck, cv, .node si false sl sk sv cl⟩ :: fs := by
  obtain ⟨b, fi, fc, fk, fv, fo⟩ := f
  simp only at ho hcl
  subst ho
  unfold fixBlack
  simp only [hcl]
  rw [if_neg (by simp)]

theorem fixBlack_both {si sl sk sv sr} {above : List (Frame K V)} (ho : f.oth = .node si false sl sk sv sr)
    (hcl : (if f.lft then sl else sr).isRed = false) (hd : (if f.lft then sr else sl).isRed = false) :
    fixBlack f fs above = if f.red then { f with red := false, oth := .node si true sl sk sv sr } :: fs
      else { f with oth := .node si true sl sk sv sr } :: above := by
  obtain ⟨b, fi, fc, fk, fv, fo⟩ := f
  simp only at ho hcl hd
  subst ho
  unfold fixBlack
  simp only
  rw [if_pos ⟨hcl, hd⟩]

theorem closeNephew_ok {si sc sl sk sv sr par} (hcell : s.heap si = some ⟨sc, par, sl.ptr, sr.ptr, sk, sv⟩)
    (Q : Nat → St K V → Prop) :
    Ok (closeNephew si (dirOf (f :: fs))) s Q ↔ Q (if f.lft then sl else sr : T K V).ptr s := by
  unfold closeNephew
  simp only [ok_bind, ok_rd, hcell, Option.some.injEq, exists_eq_left']
  cases hf : f.lft <;> simp [dirOf, hf, ok_pure]

theorem distantNephew_ok {si sc sl sk sv sr par} (hcell : s.heap si = some ⟨sc, par, sl.ptr, sr.ptr, sk, sv⟩)
    (Q : Nat → St K V → Prop) :
    Ok (distantNephew si (dirOf (f :: fs))) s Q ↔ Q (if f.lft then sr else sl : T K V).ptr s := by
  unfold distantNephew
  simp only [ok_bind, ok_rd, hcell, Option.some.injEq, exists_eq_left']
  cases hf : f.lft <;> simp [dirOf, hf, ok_pure]

theorem maintainAfterRemove_ok (fuel : Nat) {fs : List (Frame K V)} {id l k v r} {s : St K V} {n : Nat}
    (h : Conf s hl hr fs (.node id false l k v r)) (hc : CRB fs (n + 1)) (hf : fs.length < fuel) :
    Ok (maintainAfterRemove fuel id) s fun _ s' =>
      Conf s' hl hr (fixD fs) (.node id false l k v r) ∧ Same s s' := by
  induction fs generalizing fuel id l k v r s n with
  | nil =>
    cases fuel with
    | zero => simp at hf
    | succ fuel =>
      unfold maintainAfterRemove
      rw [ok_bind, h.isRoot]
      exact (ok_pure _ _ _).2 ⟨h, Same.refl _⟩
  | cons f fs ih =>
    cases fuel with
    | zero => simp at hf
    | succ fuel =>
    unfold maintainAfterRemove
    have hon : f.oth ≠ .nil := by
      intro e
      cases hc with
      | black _ h1 _ => rw [e] at h1; exact absurd h1.nil_height (by simp)
      | red _ h1 _ _ _ => rw [e] at h1; exact absurd h1.nil_height (by simp)
    have ho0 : f.oth.ptr ≠ 0 := by
      have h2 := conf_turn.2 h
      revert h2
      cases e : f.oth with
      | nil => exact absurd e hon
      | node => exact fun h2 => h2.ne_zero
    simp only [ok_bind, h.isRoot, List.isEmpty_cons, Bool.false_eq_true, if_false, ok_rd, h.cell,
      Option.some.injEq, exists_eq_left', h.hasSibling, ok_assert, h.getDirection]
    refine ⟨by simpa using ho0, Ok.mono (blackSibling_ok h hc) ?_⟩
    rintro p s1 ⟨h1, e1, rfl⟩
    obtain ⟨si, sl, sk, sv, sr, ho, hfix, hc1, hrr⟩ := rotRed_black hc
    rw [hfix]
    have hdir : dirOf (f :: fs) = dirOf ((rotRed f fs).1 :: (rotRed f fs).2) := by
      have : (rotRed f fs).1.lft = f.lft := by
        unfold rotRed
        split
        · split <;> rfl
        · rfl
      simp [dirOf, this]
    rw [hdir]
    have hc2 : (rotRed f fs).1.red = false → CRB fs (n + 1 + 1) := by
      intro hb
      have := hrr hb
      rw [this] at hb
      cases hc with
      | black _ _ h2 => exact h2
      | red h2 _ _ _ _ => rw [hb] at h2; cases h2
    generalize hF : (rotRed f fs).1 = F at *
    generalize hFs : (rotRed f fs).2 = Fs at *
    have hot := h1.othTr
    rw [ho] at hot
    have h0 := h1.zero_not_mem
    rw [idsC_cons, ho] at h0
    simp only [T.ids_node, List.mem_append, List.mem_cons] at h0
    have hcell := hot.1
    simp only [ho, T.ptr_node, closeNephew_ok hcell, distantNephew_ok hcell]
    have htc : Tr s1.heap si (if F.lft then sl else sr) := by
      split
      · exact hot.2.1
      · exact hot.2.2
    have htd : Tr s1.heap si (if F.lft then sr else sl) := by
      split
      · exact hot.2.2
      · exact hot.2.1
    have hc0 : 0 ∉ (if F.lft then sl else sr).ids := by split <;> grind
    have hd0 : 0 ∉ (if F.lft then sr else sl).ids := by split <;> grind
    rw [isBlackOrNull_ok htc hc0, isBlackOrNull_ok htd hd0]
    simp only [hcell, Option.some.injEq, exists_eq_left', Bool.not_false, true_and]
    cases hcr : (if F.lft then sl else sr).isRed
    · cases hdr : (if F.lft then sr else sl).isRed
      · rw [if_pos (by rfl), fixBlack_both ho hcr hdr]
        simp only [ok_bind, ok_rd, h1.cell, Option.some.injEq, exists_eq_left', up_cons, h1.cellUp, cell_red]
        have hp := paintOth_ok true h1 (by rw [ho]; simp)
        rw [ho] at hp
        cases hb : F.red
        · simp only [Bool.false_eq_true, if_false, ok_bind]
          refine Ok.mono hp ?_
          rintro _ s2 ⟨h2, e2⟩
          have e := hrr hb
          have eF : F = f := by rw [← hF, e]
          have eFs : Fs = fs := by rw [← hFs, e]
          rw [eFs] at h2
          have h3 := conf_fill.2 h2
          obtain ⟨l', r', e'⟩ := fill_node ({ F with oth := .node si true sl sk sv sr } : Frame K V)
            (.node id false l k v r)
          simp only [T.paint_node] at h3
          rw [e'] at h3
          simp only [hb] at h3 e'
          have := ih fuel h3 (hc2 hb) (by simp at hf; omega)
          refine Ok.mono this ?_
          rintro _ s3 ⟨h4, e4⟩
          refine ⟨?_, (e1.trans e2).trans e4⟩
          rw [← conf_fill, e']
          exact h4
        · simp only [if_true, ok_bind]
          refine Ok.mono hp ?_
          rintro _ s2 ⟨h2, e2⟩
          have := paintUp_ok false h2
          refine Ok.mono this ?_
          rintro _ s3 ⟨h3, e3⟩
          exact ⟨h3, (e1.trans e2).trans e3⟩
      · rw [if_neg (by simp), fixBlack_distant ho hcr hdr, distantSibling, ok_bind]
        simp only [Bool.not_false, if_true, ok_pure]
        refine Ok.mono (distantRed_ok h1 ho hcr hdr) ?_
        rintro _ s2 ⟨h2, e2⟩
        exact ⟨h2, e1.trans e2⟩
    · rw [if_neg (by simp), distantSibling, ok_bind]
      simp only [Bool.not_true, Bool.false_eq_true, if_false]
      cases hcl : (if F.lft then sl else sr) with
      | nil => rw [hcl] at hcr; simp at hcr
      | node ci cc cl ck cv cr =>
        rw [hcl] at hcr
        simp only [T.isRed_node] at hcr
        subst hcr
        refine Ok.mono (closeRed_ok h1 ho hcl) ?_
        rintro p s2 ⟨h2, e2, hp⟩
        rw [hp]
        rw [fixBlack_close ho hcl]
        obtain ⟨b, fi, fc, fk, fv, fo⟩ := F
        have hred : RB (T.node ci true cl ck cv cr) n := by
          rw [← hcl]
          cases hc1 with
          | black _ h6 _ =>
            rw [ho] at h6
            split
            · exact h6.blackParts.1
            · exact h6.blackParts.2
          | red _ h6 _ _ _ =>
            rw [ho] at h6
            split
            · exact h6.blackParts.1
            · exact h6.blackParts.2
        obtain ⟨_, _, b3, b4⟩ := hred.redParts
        cases b
        · simp only [Bool.false_eq_true, if_false] at h2 ⊢
          have := distantRed_ok h2 rfl (by simpa using b4) (by simp)
          refine Ok.mono this ?_
          rintro _ s3 ⟨h3, e3⟩
          exact ⟨h3, (e1.trans e2).trans e3⟩
        · simp only [if_true] at h2 ⊢
          have := distantRed_ok h2 rfl (by simpa using b3) (by simp)
          refine Ok.mono this ?_
          rintro _ s3 ⟨h3, e3⟩
          exact ⟨h3, (e1.trans e2).trans e3⟩

end Verif.RBTree
