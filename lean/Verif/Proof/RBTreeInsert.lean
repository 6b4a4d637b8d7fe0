import Verif.Proof.RBTreeHeap
import Mathlib.Data.List.Perm.Subperm

/-!
Helper lemmas for `RBTree`: `maintainAfterInsert` as a function on paths.
-/
namespace Verif.RBTree

variable {K V : Type} {s : St K V} {hl hr : Nat} {f g : Frame K V} {fs : List (Frame K V)} {t : T K V}

/-! ## Moving the focus -/

/-- The frame leading to the sibling. -/
def Frame.turn (f : Frame K V) (t : T K V) : Frame K V := { f with lft := !f.lft, oth := t }

theorem turn_fill (f : Frame K V) (t : T K V) : (f.turn t).fill f.oth = f.fill t := by
  unfold Frame.turn Frame.fill
  cases f.lft <;> rfl

theorem conf_turn : Conf s hl hr (f.turn t :: fs) f.oth ↔ Conf s hl hr (f :: fs) t := by
  rw [← conf_fill, ← conf_fill, turn_fill]

/-- The node of a frame, for the lemmas about nodes. -/
theorem fill_node (f : Frame K V) (t : T K V) : ∃ l r, f.fill t = .node f.id f.red l f.k f.v r := by
  unfold Frame.fill
  split
  · exact ⟨_, _, rfl⟩
  · exact ⟨_, _, rfl⟩

theorem Conf.isRootUp (h : Conf s hl hr (f :: fs) t) (Q : Bool → St K V → Prop) :
    Ok (RBTree.isRoot f.id) s Q ↔ Q fs.isEmpty s := by
  rw [← conf_fill] at h
  obtain ⟨l, r, e⟩ := fill_node f t
  rw [e] at h
  exact h.isRoot Q

theorem Conf.getDirectionUp (h : Conf s hl hr (f :: fs) t) (Q : Dir → St K V → Prop) :
    Ok (RBTree.getDirection f.id) s Q ↔ Q (dirOf fs) s := by
  rw [← conf_fill] at h
  obtain ⟨l, r, e⟩ := fill_node f t
  rw [e] at h
  exact h.getDirection Q

theorem Conf.cellUp (h : Conf s hl hr (f :: fs) t) :
    s.heap f.id = some (f.cell (up s.header fs) t.ptr) := h.cx.1

theorem Conf.getSibling {id c l k v r} (h : Conf s hl hr (f :: fs) (.node id c l k v r))
    (Q : Nat → St K V → Prop) : Ok (RBTree.getSibling id) s Q ↔ Q f.oth.ptr s := by
  have h1 := h.tr.1
  have h2 := h.cellUp
  simp only [up_cons] at h1
  unfold RBTree.getSibling
  simp only [ok_bind, h.getDirection, ok_rd, h1, h2, Option.some.injEq, exists_eq_left']
  cases hf : f.lft <;> simp [dirOf, hf, ok_pure, Frame.cell]

theorem Conf.getSiblingUp (h : Conf s hl hr (f :: g :: fs) t) (Q : Nat → St K V → Prop) :
    Ok (RBTree.getSibling f.id) s Q ↔ Q g.oth.ptr s := by
  rw [← conf_fill] at h
  obtain ⟨l, r, e⟩ := fill_node f t
  rw [e] at h
  exact h.getSibling Q

theorem Conf.hasSibling {id c l k v r} (h : Conf s hl hr (f :: fs) (.node id c l k v r))
    (Q : Bool → St K V → Prop) : Ok (RBTree.hasSibling id) s Q ↔ Q (f.oth.ptr != 0) s := by
  unfold RBTree.hasSibling
  simp [ok_bind, h.isRoot, h.getSibling, ok_pure]

theorem Conf.hasSiblingUp (h : Conf s hl hr (f :: g :: fs) t) (Q : Bool → St K V → Prop) :
    Ok (RBTree.hasSibling f.id) s Q ↔ Q (g.oth.ptr != 0) s := by
  rw [← conf_fill] at h
  obtain ⟨l, r, e⟩ := fill_node f t
  rw [e] at h
  exact h.hasSibling Q

theorem Conf.cell {id c l k v r} (h : Conf s hl hr fs (.node id c l k v r)) :
    s.heap id = some ⟨c, up s.header fs, l.ptr, r.ptr, k, v⟩ := h.tr.1

theorem Conf.ne_zero {id c l k v r} (h : Conf s hl hr fs (.node id c l k v r)) : id ≠ 0 := by
  have := h.nd
  simp at this
  grind

theorem cell_red (f : Frame K V) (a b : Nat) : (f.cell a b).red = f.red := by
  unfold Frame.cell; split <;> rfl

theorem cell_parent (f : Frame K V) (a b : Nat) : (f.cell a b).parent = a := by
  unfold Frame.cell; split <;> rfl

theorem paintUp_ok (c : Bool) (h : Conf s hl hr (f :: fs) t) :
    Ok (paint f.id c) s fun _ s' => Conf s' hl hr ({ f with red := c } :: fs) t ∧ Same s s' := by
  rw [← conf_fill] at h
  obtain ⟨l, r, e⟩ := fill_node f t
  rw [e] at h
  refine Ok.mono (paint_ok c h) ?_
  rintro _ s' ⟨h', e'⟩
  refine ⟨?_, e'⟩
  rw [← conf_fill]
  convert h' using 1
  unfold Frame.fill at e ⊢
  dsimp only
  cases hf : f.lft <;> rw [hf] at e <;> cases e <;> rfl

theorem paintOth_ok (c : Bool) (h : Conf s hl hr (f :: fs) t) (hn : f.oth ≠ .nil) :
    Ok (paint f.oth.ptr c) s fun _ s' => Conf s' hl hr ({ f with oth := f.oth.paint c } :: fs) t ∧ Same s s' := by
  rw [← conf_turn] at h
  cases ho : f.oth with
  | nil => exact absurd ho hn
  | node id c' l k v r =>
    rw [ho] at h
    refine Ok.mono (paint_ok c h) ?_
    rintro _ s' ⟨h', e'⟩
    refine ⟨?_, e'⟩
    rw [← conf_turn]
    exact h'

/-! ## `maintainAfterInsert` on paths -/

/-- Cases 5 and 6: `t` is the current node, `f` its parent, `g` its grandparent. -/
def turnUp (g f : Frame K V) (t : T K V) : T K V :=
  match g.lft, f.lft, t with
  | true, true, t => .node f.id false t f.k f.v (.node g.id true f.oth g.k g.v g.oth)
  | false, false, t => .node f.id false (.node g.id true g.oth g.k g.v f.oth) f.k f.v t
  | true, false, .node id _ l k v r =>
    .node id false (.node f.id f.red f.oth f.k f.v l) k v (.node g.id true r g.k g.v g.oth)
  | false, true, .node id _ l k v r =>
    .node id false (.node g.id true g.oth g.k g.v l) k v (.node f.id f.red r f.k f.v f.oth)
  | _, _, .nil => .nil

/-- The tree after `maintainAfterInsert` at the end of a path. -/
def fixI : List (Frame K V) → T K V → T K V
  | [], t => t.paint false
  | [f], t => if f.red then ({ f with red := false } : Frame K V).fill t else f.fill t
  | f :: g :: gs, t =>
    if f.red then
      if g.oth.isRed then
        fixI gs (({ g with red := true, oth := g.oth.paint false } : Frame K V).fill
          (({ f with red := false } : Frame K V).fill t))
      else plug gs (turnUp g f t)
    else plug (f :: g :: gs) t

theorem redUncle_ok {id c l k v r} (h : Conf s hl hr (f :: g :: fs) (.node id c l k v r))
    (Q : Bool → St K V → Prop) : Ok (redUncle id) s Q ↔ Q g.oth.isRed s := by
  unfold redUncle hasUncle getUncle
  simp only [ok_bind, h.isRoot, List.isEmpty_cons, Bool.false_eq_true, if_false, ok_rd, h.cell,
    Option.some.injEq, exists_eq_left', up_cons, h.hasSiblingUp]
  cases ho : g.oth with
  | nil => simp [ok_pure]
  | node id' c' l' k' v' r' =>
    have h2 : Conf s hl hr (g.turn (f.fill (.node id c l k v r)) :: fs) g.oth :=
      conf_turn.2 (conf_fill.2 h)
    rw [ho] at h2
    have h0 := h2.ne_zero
    simp [h0, ok_bind, ok_rd, h2.cell, ok_pure, h.cell, h.getSiblingUp, ho]

theorem recolour_ok {id c l k v r} (h : Conf s hl hr (f :: g :: fs) (.node id c l k v r))
    (hg : g.oth.isRed = true) :
    Ok (recolour id) s fun p s' => p = g.id ∧
      Conf s' hl hr fs (({ g with red := true, oth := g.oth.paint false } : Frame K V).fill
          (({ f with red := false } : Frame K V).fill (.node id c l k v r))) ∧ Same s s' := by
  unfold recolour getUncle getGrandParent
  simp only [ok_bind, ok_rd, h.cell, Option.some.injEq, exists_eq_left', up_cons]
  refine Ok.mono (paintUp_ok false h) ?_
  rintro _ s1 ⟨h1, e1⟩
  simp only [h1.cell, Option.some.injEq, exists_eq_left', up_cons]
  rw [h1.getSiblingUp]
  have hn : g.oth ≠ .nil := by intro e; rw [e] at hg; simp at hg
  refine Ok.mono (paintOth_ok false (conf_fill.2 h1) hn) ?_
  rintro _ s2 ⟨h2, e2⟩
  have h2' := conf_fill.1 h2
  simp only [h2'.cell, Option.some.injEq, exists_eq_left', up_cons]
  have hc := h2'.cellUp
  dsimp only at hc
  simp only [hc, Option.some.injEq, exists_eq_left', cell_parent, ok_pure, up_cons]
  have h3 := paintUp_ok true h2
  refine Ok.mono h3 ?_
  rintro _ s3 ⟨h3, e3⟩
  exact ⟨trivial, conf_fill.2 h3, (e1.trans e2).trans e3⟩

theorem fill_true (i c k v) (o t : T K V) : (⟨true, i, c, k, v, o⟩ : Frame K V).fill t = .node i c t k v o := rfl

theorem fill_false (i c k v) (o t : T K V) :
    (⟨false, i, c, k, v, o⟩ : Frame K V).fill t = .node i c o k v t := rfl

theorem conf_left {i c k v} {o t : T K V} :
    Conf s hl hr fs (.node i c t k v o) ↔ Conf s hl hr (⟨true, i, c, k, v, o⟩ :: fs) t :=
  conf_fill (f := ⟨true, i, c, k, v, o⟩)

theorem conf_right {i c k v} {o t : T K V} :
    Conf s hl hr fs (.node i c o k v t) ↔ Conf s hl hr (⟨false, i, c, k, v, o⟩ :: fs) t :=
  conf_fill (f := ⟨false, i, c, k, v, o⟩)

/-- Painting the parent black and the sibling red. -/
theorem repaint_ok {id c l k v r} (h : Conf s hl hr (f :: fs) (.node id c l k v r)) (ho : f.oth ≠ .nil) :
    Ok (do
      let n ← rd id
      paint n.parent false
      let s ← getSibling id
      paint s true) s fun _ s' =>
      Conf s' hl hr ({ f with red := false, oth := f.oth.paint true } :: fs) (.node id c l k v r) ∧
        Same s s' := by
  simp only [ok_bind, ok_rd, h.cell, Option.some.injEq, exists_eq_left', up_cons]
  refine Ok.mono (paintUp_ok false h) ?_
  rintro _ s1 ⟨h1, e1⟩
  rw [h1.getSibling]
  refine Ok.mono (paintOth_ok true h1 ho) ?_
  rintro _ s2 ⟨h2, e2⟩
  exact ⟨h2, e1.trans e2⟩

theorem raise_ok {id c l k v r} (h : Conf s hl hr (f :: g :: fs) (.node id c l k v r))
    (hfg : f.lft = g.lft) :
    Ok (raise id) s fun _ s' => Conf s' hl hr fs (turnUp g f (.node id c l k v r)) ∧ Same s s' := by
  unfold raise getGrandParent
  simp only [ok_bind, ok_rd, h.cell, Option.some.injEq, exists_eq_left', up_cons, h.getDirectionUp,
    h.cellUp, cell_parent, ok_pure]
  obtain ⟨b, fi, fc, fk, fv, fo⟩ := f
  obtain ⟨b', gi, gc, gk, gv, go⟩ := g
  simp only at hfg
  subst hfg
  have h1 := conf_fill.2 (conf_fill.2 h)
  cases b
  · simp only [dirOf, Bool.false_eq_true, if_false, reduceCtorEq]
    simp only [fill_false] at h1
    rw [ok_bind]
    refine Ok.mono (rotateLeft_ok h1) ?_
    rintro _ s1 ⟨h2, e2⟩
    rw [← fill_false, conf_fill] at h2
    refine Ok.mono (repaint_ok h2 (by simp)) ?_
    rintro _ s2 ⟨h3, e3⟩
    exact ⟨conf_fill.2 h3, e2.trans e3⟩
  · simp only [dirOf, if_true]
    simp only [fill_true] at h1
    rw [ok_bind]
    refine Ok.mono (rotateRight_ok h1) ?_
    rintro _ s1 ⟨h2, e2⟩
    rw [← fill_true, conf_fill] at h2
    refine Ok.mono (repaint_ok h2 (by simp)) ?_
    rintro _ s2 ⟨h3, e3⟩
    exact ⟨conf_fill.2 h3, e2.trans e3⟩

theorem turn_ok {id c l k v r} (h : Conf s hl hr (f :: g :: fs) (.node id c l k v r)) :
    Ok (straighten id >>= raise) s fun _ s' =>
      Conf s' hl hr fs (turnUp g f (.node id c l k v r)) ∧ Same s s' := by
  unfold straighten
  simp only [ok_bind, h.getDirection, ok_rd, h.cell, Option.some.injEq, exists_eq_left', up_cons,
    h.getDirectionUp]
  by_cases hfg : f.lft = g.lft
  · rw [if_pos (by simp [dirOf, hfg]), ok_pure]
    exact raise_ok h hfg
  · rw [if_neg (by simp only [dirOf]; revert hfg; cases f.lft <;> cases g.lft <;> simp)]
    obtain ⟨b, fi, fc, fk, fv, fo⟩ := f
    obtain ⟨b', gi, gc, gk, gv, go⟩ := g
    have h1 := conf_fill.2 h
    cases b
    · have hb : b' = true := by revert hfg; cases b' <;> simp
      subst hb
      simp only [dirOf, Bool.false_eq_true, if_false, reduceCtorEq, ok_bind, ok_pure]
      simp only [fill_false] at h1
      refine Ok.mono (rotateLeft_ok h1) ?_
      rintro _ s1 ⟨h2, e2⟩
      rw [← fill_true, conf_fill] at h2
      refine Ok.mono (raise_ok h2 rfl) ?_
      rintro _ s2 ⟨h3, e3⟩
      exact ⟨h3, e2.trans e3⟩
    · have hb : b' = false := by revert hfg; cases b' <;> simp
      subst hb
      simp only [dirOf, if_true, ok_bind, ok_pure]
      simp only [fill_true] at h1
      refine Ok.mono (rotateRight_ok h1) ?_
      rintro _ s1 ⟨h2, e2⟩
      rw [← fill_false, conf_fill] at h2
      refine Ok.mono (raise_ok h2 rfl) ?_
      rintro _ s2 ⟨h3, e3⟩
      exact ⟨h3, e2.trans e3⟩

theorem maintainAfterInsert_ok (fuel : Nat) {fs : List (Frame K V)} {id c l k v r} {s : St K V}
    (h : Conf s hl hr fs (.node id c l k v r)) (hf : fs.length < fuel) :
    Ok (maintainAfterInsert fuel id) s fun _ s' =>
      Conf s' hl hr [] (fixI fs (.node id c l k v r)) ∧ Same s s' := by
  induction fuel using Nat.strongRecOn generalizing fs id c l k v r s with
  | _ fuel ih =>
  cases fuel with
  | zero => omega
  | succ fuel =>
    unfold maintainAfterInsert
    rw [ok_bind, h.isRoot]
    match fs, h, hf with
    | [], h, hf =>
      simp only [List.isEmpty_nil, if_true]
      exact paint_ok false h
    | [f], h, hf =>
      simp only [List.isEmpty_cons, Bool.false_eq_true, if_false, ok_bind, ok_rd, h.cell,
        Option.some.injEq, exists_eq_left', up_cons, h.cellUp, cell_red]
      cases hr : f.red
      · simp [ok_pure, fixI, hr, Same.refl, conf_fill, h]
      · simp only [Bool.true_eq_false, if_false, ok_bind, h.isRootUp, List.isEmpty_nil, if_true, fixI, hr]
        refine Ok.mono (paintUp_ok false h) ?_
        rintro _ s' ⟨h', e'⟩
        exact ⟨conf_fill.2 h', e'⟩
    | f :: g :: gs, h, hf =>
      simp only [List.isEmpty_cons, Bool.false_eq_true, if_false, ok_bind, ok_rd, h.cell,
        Option.some.injEq, exists_eq_left', up_cons, h.cellUp, cell_red]
      cases hr : f.red
      · simp only [if_true, ok_pure, fixI, hr, Bool.false_eq_true, if_false]
        exact ⟨conf_plug.1 h, Same.refl _⟩
      · simp only [Bool.true_eq_false, if_false, ok_bind, h.isRootUp, List.isEmpty_cons, fixI, hr,
          Bool.false_eq_true, if_true, redUncle_ok h]
        cases hg : g.oth.isRed
        · simp only [Bool.false_eq_true, if_false]
          refine Ok.mono (turn_ok h) ?_
          rintro _ s' ⟨h', e'⟩
          exact ⟨conf_plug.1 h', e'⟩
        · simp only [if_true, ok_bind]
          refine Ok.mono (recolour_ok h hg) ?_
          rintro p s' ⟨rfl, h', e'⟩
          obtain ⟨l', r', e⟩ := fill_node ({ g with red := true, oth := g.oth.paint false } : Frame K V)
            (({ f with red := false } : Frame K V).fill (.node id c l k v r))
          rw [e] at h' ⊢
          refine Ok.mono (ih fuel (by omega) h' (by simp at hf; omega)) ?_
          rintro _ s'' ⟨h'', e''⟩
          exact ⟨h'', e'.trans e''⟩

end Verif.RBTree
