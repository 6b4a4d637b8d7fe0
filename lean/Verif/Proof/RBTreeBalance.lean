import Verif.Proof.RBTreeInsert

/-!
Helper lemmas for `RBTree`: the functions on paths keep the entries in order and the tree balanced.
-/
namespace Verif.RBTree

variable {K V : Type}

/-! ## Entries -/

/-- Entries before the end of a path. -/
def pre : List (Frame K V) → List (Nat × K × V)
  | [] => []
  | f :: fs => pre fs ++ if f.lft then [] else f.oth.list ++ [(f.id, f.k, f.v)]

/-- Entries after the end of a path. -/
def post : List (Frame K V) → List (Nat × K × V)
  | [] => []
  | f :: fs => (if f.lft then (f.id, f.k, f.v) :: f.oth.list else []) ++ post fs

theorem plug_list (fs : List (Frame K V)) (t : T K V) : (plug fs t).list = pre fs ++ t.list ++ post fs := by
  induction fs generalizing t with
  | nil => simp [pre, post]
  | cons f fs ih =>
    rw [plug_cons, ih]
    unfold Frame.fill
    cases hf : f.lft <;> simp [pre, post, hf]

theorem paint_list (c : Bool) (t : T K V) : (t.paint c).list = t.list := by cases t <;> rfl

theorem fill_list (f : Frame K V) (t : T K V) :
    (f.fill t).list =
      if f.lft then t.list ++ (f.id, f.k, f.v) :: f.oth.list else f.oth.list ++ (f.id, f.k, f.v) :: t.list := by
  unfold Frame.fill
  cases hf : f.lft <;> simp

theorem turnUp_list (g f : Frame K V) {t : T K V} (ht : t ≠ .nil) :
    (turnUp g f t).list = (g.fill (f.fill t)).list := by
  obtain ⟨b, gi, gc, gk, gv, go⟩ := g
  obtain ⟨b', fi, fc, fk, fv, fo⟩ := f
  cases t with
  | nil => exact absurd rfl ht
  | node id c l k v r => cases b <;> cases b' <;> simp [turnUp, Frame.fill]

theorem fixI_list : ∀ (fs : List (Frame K V)) {t : T K V}, t ≠ .nil →
    (fixI fs t).list = pre fs ++ t.list ++ post fs
  | [], t, _ => by simp [fixI, paint_list, pre, post]
  | [f], t, _ => by
    unfold fixI
    split <;> simp [fill_list, pre, post] <;> split <;> simp
  | f :: g :: gs, t, ht => by
    unfold fixI
    rw [← plug_list]
    split
    · split
      · have hn : ∀ (f : Frame K V) (t : T K V), f.fill t ≠ .nil := by
          intro f t e
          obtain ⟨l, r, e'⟩ := fill_node f t
          rw [e] at e'
          cases e'
        rw [fixI_list gs (hn _ _)]
        rw [plug_cons, plug_cons, plug_list]
        simp [fill_list, paint_list]
      · rw [plug_list, turnUp_list g f ht, plug_cons, plug_cons, plug_list]
    · rfl

/-! ## Balance -/

/-- No red node has a red child, and all paths have `n` black nodes. -/
inductive RB : T K V → Nat → Prop
  | nil : RB .nil 0
  | red {id l k v r n} : RB l n → RB r n → l.isRed = false → r.isRed = false → RB (.node id true l k v r) n
  | black {id l k v r n} : RB l n → RB r n → RB (.node id false l k v r) (n + 1)

/-- There is a parent, and it is black. -/
def topBlack : List (Frame K V) → Prop
  | [] => False
  | f :: _ => f.red = false

/-- A path whose end fits a tree with `n` black nodes on all paths. -/
inductive CRB : List (Frame K V) → Nat → Prop
  | nil {n} : CRB [] n
  | black {f : Frame K V} {fs n} : f.red = false → RB f.oth n → CRB fs (n + 1) → CRB (f :: fs) n
  | red {f : Frame K V} {fs n} : f.red = true → RB f.oth n → f.oth.isRed = false → topBlack fs → CRB fs n →
      CRB (f :: fs) n

theorem RB.paintBlack {t : T K V} {n : Nat} (h : RB t n) (hr : t.isRed = true) : RB (t.paint false) (n + 1) := by
  cases h with
  | nil => simp at hr
  | red h1 h2 _ _ => exact .black h1 h2
  | black h1 h2 => simp at hr

theorem fill_red (f : Frame K V) (t : T K V) : (f.fill t).isRed = f.red := by
  unfold Frame.fill; split <;> rfl

theorem RB.fillBlack {f : Frame K V} {t : T K V} {n : Nat} (hf : f.red = false) (h : RB f.oth n) (ht : RB t n) :
    RB (f.fill t) (n + 1) := by
  unfold Frame.fill
  rw [hf]
  split
  · exact .black ht h
  · exact .black h ht

theorem RB.fillRed {f : Frame K V} {t : T K V} {n : Nat} (hf : f.red = true) (h : RB f.oth n) (ht : RB t n)
    (h' : f.oth.isRed = false) (ht' : t.isRed = false) : RB (f.fill t) n := by
  unfold Frame.fill
  rw [hf]
  split
  · exact .red ht h ht' h'
  · exact .red h ht h' ht'

theorem plug_rb {fs : List (Frame K V)} {n : Nat} {t : T K V} (hc : CRB fs n) (ht : RB t n)
    (hr : t.isRed = true → topBlack fs) : ∃ m, RB (plug fs t) m ∧ (plug fs t).isRed = false := by
  induction hc generalizing t with
  | nil =>
    refine ⟨_, ht, ?_⟩
    cases h : t.isRed
    · exact h
    · exact (hr h).elim
  | @black f fs n hf ho _ ih =>
    rw [plug_cons]
    refine ih (RB.fillBlack hf ho ht) fun h => ?_
    rw [fill_red, hf] at h
    cases h
  | @red f fs n hf ho ho' htop _ ih =>
    rw [plug_cons]
    refine ih (RB.fillRed hf ho ht ho' ?_) fun _ => htop
    cases h : t.isRed
    · rfl
    · have := hr h
      simp [topBlack, hf] at this

theorem turnUp_rb {g f : Frame K V} {id : Nat} {l r : T K V} {k : K} {v : V} {n : Nat}
    (hg : RB g.oth n) (hg' : g.oth.isRed = false) (hf : RB f.oth n) (hf' : f.oth.isRed = false)
    (hfr : f.red = true) (hl : RB l n) (hr : RB r n) (hl' : l.isRed = false) (hr' : r.isRed = false) :
    RB (turnUp g f (.node id true l k v r)) (n + 1) ∧ (turnUp g f (.node id true l k v r)).isRed = false := by
  obtain ⟨b, gi, gc, gk, gv, go⟩ := g
  obtain ⟨b', fi, fc, fk, fv, fo⟩ := f
  simp only at hg hg' hf hf' hfr
  subst hfr
  cases b <;> cases b' <;> refine ⟨?_, rfl⟩
  · exact .black (.red hg hf hg' hf') (.red hl hr hl' hr')
  · exact .black (.red hg hl hg' hl') (.red hr hf hr' hf')
  · exact .black (.red hf hl hf' hl') (.red hr hg hr' hg')
  · exact .black (.red hl hr hl' hr') (.red hf hg hf' hg')

/-- `maintainAfterInsert` restores the balance after a red node was added at the end of a path. -/
theorem fixI_rb : ∀ (fs : List (Frame K V)) {n : Nat} {t : T K V}, CRB fs n → RB t n → t.isRed = true →
    ∃ m, RB (fixI fs t) m ∧ (fixI fs t).isRed = false
  | [], n, t, _, ht, hr => by
    refine ⟨n + 1, ht.paintBlack hr, ?_⟩
    cases t <;> rfl
  | [f], n, t, hc, ht, hr => by
    cases hc with
    | black hf ho _ =>
      unfold fixI
      rw [hf]
      exact ⟨_, RB.fillBlack hf ho ht, by simp [fill_red, hf]⟩
    | red _ _ _ htop _ => exact htop.elim
  | f :: g :: gs, n, t, hc, ht, hr => by
    unfold fixI
    cases hc with
    | black hf ho hc' =>
      rw [if_neg (by simp [hf])]
      exact plug_rb (.black hf ho hc') ht fun _ => hf
    | red hf ho ho' htop hc' =>
      rw [if_pos hf]
      have hgb : g.red = false := htop
      cases hc' with
      | red hg _ _ _ _ => rw [hgb] at hg; cases hg
      | black _ hgo hc'' =>
        split
        · rename_i hu
          refine fixI_rb gs hc'' (RB.fillRed rfl (hgo.paintBlack hu) (RB.fillBlack rfl ho ht) ?_ ?_) ?_
          · cases g.oth <;> rfl
          · rw [fill_red]
          · rw [fill_red]
        · rename_i hu
          have hu : g.oth.isRed = false := by simpa using hu
          cases ht with
          | nil => simp at hr
          | black _ _ => simp at hr
          | @red id l k v r _ h1 h2 h3 h4 =>
            have := turnUp_rb (g := g) (f := f) (id := id) (k := k) (v := v) hgo hu ho ho' hf h1 h2 h3 h4
            exact plug_rb hc'' this.1 fun h => by rw [this.2] at h; cases h

/-! ## `maintainAfterRemove` on paths -/

/-- `maintainAfterRemove` from case 2 on, where the sibling is black; `above` is what becomes of the path
above if the parent is maintained. -/
def fixBlack (f : Frame K V) (fs above : List (Frame K V)) : List (Frame K V) :=
  match f.oth with
  | .nil => f :: fs
  | .node si _ sl sk sv sr =>
    let close := if f.lft then sl else sr
    let distant := if f.lft then sr else sl
    if close.isRed = false ∧ distant.isRed = false then
      if f.red then { f with red := false, oth := .node si true sl sk sv sr } :: fs
      else { f with oth := .node si true sl sk sv sr } :: above
    else
      match close with
      | .node ci true cl ck cv cr =>
        if f.lft then
          { f with red := false, oth := cl } :: ⟨true, ci, f.red, ck, cv, .node si false cr sk sv sr⟩ :: fs
        else
          { f with red := false, oth := cr } :: ⟨false, ci, f.red, ck, cv, .node si false sl sk sv cl⟩ :: fs
      | _ => { f with red := false, oth := close } :: ⟨f.lft, si, f.red, sk, sv, distant.paint false⟩ :: fs

/-- The path after `maintainAfterRemove` at its end. -/
def fixD : List (Frame K V) → List (Frame K V)
  | [] => []
  | f :: fs =>
    match f.oth with
    | .node si true sl sk sv sr =>
      if f.lft then
        fixBlack { f with red := true, oth := sl } (⟨true, si, false, sk, sv, sr⟩ :: fs) []
      else
        fixBlack { f with red := true, oth := sr } (⟨false, si, false, sk, sv, sl⟩ :: fs) []
    | _ => fixBlack f fs (fixD fs)

theorem fixBlack_pre (f : Frame K V) {fs above : List (Frame K V)} (h : pre above = pre fs) :
    pre (fixBlack f fs above) = pre (f :: fs) := by
  obtain ⟨b, fi, fc, fk, fv, fo⟩ := f
  unfold fixBlack
  cases fo with
  | nil => rfl
  | node si sc sl sk sv sr =>
    cases b <;> simp only [Bool.false_eq_true, if_false, if_true]
    · by_cases hc : sr.isRed = false ∧ sl.isRed = false
      · rw [if_pos hc]
        cases fc <;> simp [pre, h]
      · rw [if_neg hc]
        cases sr with
        | nil => simp [pre, paint_list]
        | node ci cc cl ck cv cr => cases cc <;> simp [pre, paint_list]
    · by_cases hc : sl.isRed = false ∧ sr.isRed = false
      · rw [if_pos hc]
        cases fc <;> simp [pre, h]
      · rw [if_neg hc]
        cases sl with
        | nil => simp [pre, paint_list]
        | node ci cc cl ck cv cr => cases cc <;> simp [pre, paint_list]

theorem fixBlack_post (f : Frame K V) {fs above : List (Frame K V)} (h : post above = post fs) :
    post (fixBlack f fs above) = post (f :: fs) := by
  obtain ⟨b, fi, fc, fk, fv, fo⟩ := f
  unfold fixBlack
  cases fo with
  | nil => rfl
  | node si sc sl sk sv sr =>
    cases b <;> simp only [Bool.false_eq_true, if_false, if_true]
    · by_cases hc : sr.isRed = false ∧ sl.isRed = false
      · rw [if_pos hc]
        cases fc <;> simp [post, h]
      · rw [if_neg hc]
        cases sr with
        | nil => simp [post, paint_list]
        | node ci cc cl ck cv cr => cases cc <;> simp [post, paint_list]
    · by_cases hc : sl.isRed = false ∧ sr.isRed = false
      · rw [if_pos hc]
        cases fc <;> simp [post, h]
      · rw [if_neg hc]
        cases sl with
        | nil => simp [post, paint_list]
        | node ci cc cl ck cv cr => cases cc <;> simp [post, paint_list]

theorem fixBlack_above (f : Frame K V) (fs above above' : List (Frame K V)) (hf : f.red = true) :
    fixBlack f fs above = fixBlack f fs above' := by
  unfold fixBlack
  simp [hf]

/-- With a red parent, the path above does not matter. -/
theorem fixBlack_pre' (f : Frame K V) (fs above : List (Frame K V)) (hf : f.red = true) :
    pre (fixBlack f fs above) = pre (f :: fs) := by
  rw [← fixBlack_pre f (fs := fs) (above := fs) rfl, fixBlack_above f fs above fs hf]

/-- With a red parent, the path above does not matter. -/
theorem fixBlack_post' (f : Frame K V) (fs above : List (Frame K V)) (hf : f.red = true) :
    post (fixBlack f fs above) = post (f :: fs) := by
  rw [← fixBlack_post f (fs := fs) (above := fs) rfl, fixBlack_above f fs above fs hf]

theorem fixD_pre (fs : List (Frame K V)) : pre (fixD fs) = pre fs := by
  induction fs with
  | nil => rfl
  | cons f fs ih =>
    obtain ⟨b, fi, fc, fk, fv, fo⟩ := f
    unfold fixD
    cases fo with
    | nil => exact fixBlack_pre _ ih
    | node si sc sl sk sv sr =>
      cases sc
      · exact fixBlack_pre _ ih
      · cases b
        · dsimp only
          rw [if_neg (by simp), fixBlack_pre' _ _ _ rfl]
          simp [pre]
        · dsimp only
          rw [if_pos rfl, fixBlack_pre' _ _ _ rfl]
          simp [pre]

theorem fixD_post (fs : List (Frame K V)) : post (fixD fs) = post fs := by
  induction fs with
  | nil => rfl
  | cons f fs ih =>
    obtain ⟨b, fi, fc, fk, fv, fo⟩ := f
    unfold fixD
    cases fo with
    | nil => exact fixBlack_post _ ih
    | node si sc sl sk sv sr =>
      cases sc
      · exact fixBlack_post _ ih
      · cases b
        · dsimp only
          rw [if_neg (by simp), fixBlack_post' _ _ _ rfl]
          simp [post]
        · dsimp only
          rw [if_pos rfl, fixBlack_post' _ _ _ rfl]
          simp [post]

theorem RB.paintRed {id l k v r n} (h : RB (.node id false l k v r : T K V) (n + 1)) (hl : l.isRed = false)
    (hr : r.isRed = false) : RB (.node id true l k v r : T K V) n := by
  cases h with
  | black h1 h2 => exact .red h1 h2 hl hr

theorem RB.redParts {id l k v r n} (h : RB (.node id true l k v r : T K V) n) :
    RB l n ∧ RB r n ∧ l.isRed = false ∧ r.isRed = false := by
  cases h with
  | red h1 h2 h3 h4 => exact ⟨h1, h2, h3, h4⟩

theorem RB.blackParts {id l k v r n} (h : RB (.node id false l k v r : T K V) (n + 1)) : RB l n ∧ RB r n := by
  cases h with
  | black h1 h2 => exact ⟨h1, h2⟩

theorem RB.nil_height {n : Nat} (h : RB (.nil : T K V) n) : n = 0 := by cases h; rfl

/-- The end of the path lacks one black node; `fixBlack` makes up for it. -/
theorem fixBlack_rb {f : Frame K V} {fs above : List (Frame K V)} {n : Nat} (ho : RB f.oth (n + 1))
    (hb : f.oth.isRed = false)
    (hf : (f.red = true ∧ topBlack fs ∧ CRB fs (n + 1)) ∨ (f.red = false ∧ CRB fs (n + 2) ∧ CRB above (n + 1))) :
    CRB (fixBlack f fs above) n := by
  obtain ⟨b, fi, fc, fk, fv, fo⟩ := f
  unfold fixBlack
  cases fo with
  | nil => exact absurd ho.nil_height (by simp)
  | node si sc sl sk sv sr =>
    simp only [T.isRed_node] at hb
    subst hb
    simp only at ho hf
    obtain ⟨hsl, hsr⟩ := ho.blackParts
    have mk : ∀ (g : Frame K V), g.red = fc → RB g.oth (n + 1) → (fc = true → g.oth.isRed = false) →
        CRB (g :: fs) (n + 1) := by
      intro g hg hgo hgb
      rcases hf with ⟨e, ht, hc⟩ | ⟨e, hc, _⟩
      · exact .red (hg.trans e) hgo (hgb e) ht hc
      · exact .black (hg.trans e) hgo hc
    have mk2 : sl.isRed = false → sr.isRed = false →
        CRB (if fc then ⟨b, fi, false, fk, fv, .node si true sl sk sv sr⟩ :: fs
          else ⟨b, fi, fc, fk, fv, .node si true sl sk sv sr⟩ :: above) n := by
      intro h1 h2
      rcases hf with ⟨e, ht, hc⟩ | ⟨e, hc, ha⟩
      · rw [if_pos e]
        exact .black rfl (ho.paintRed h1 h2) hc
      · rw [if_neg (by simp [e])]
        exact .black e (ho.paintRed h1 h2) ha
    cases b <;> simp only [Bool.false_eq_true, if_false, if_true]
    · by_cases hc : sr.isRed = false ∧ sl.isRed = false
      · rw [if_pos hc]
        exact mk2 hc.2 hc.1
      · rw [if_neg hc]
        cases sr with
        | nil =>
          have hr : sl.isRed = true := by simpa using hc
          exact .black rfl hsr (mk _ rfl (hsl.paintBlack hr) fun _ => by cases sl <;> rfl)
        | node ci cc cl ck cv cr =>
          cases cc
          · have hr : sl.isRed = true := by simpa using hc
            exact .black rfl hsr (mk _ rfl (hsl.paintBlack hr) fun _ => by cases sl <;> rfl)
          · obtain ⟨h1, h2, h3, h4⟩ := hsr.redParts
            exact .black rfl h2 (mk _ rfl (.black hsl h1) fun _ => rfl)
    · by_cases hc : sl.isRed = false ∧ sr.isRed = false
      · rw [if_pos hc]
        exact mk2 hc.1 hc.2
      · rw [if_neg hc]
        cases sl with
        | nil =>
          have hr : sr.isRed = true := by simpa using hc
          exact .black rfl hsl (mk _ rfl (hsr.paintBlack hr) fun _ => by cases sr <;> rfl)
        | node ci cc cl ck cv cr =>
          cases cc
          · have hr : sr.isRed = true := by simpa using hc
            exact .black rfl hsl (mk _ rfl (hsr.paintBlack hr) fun _ => by cases sr <;> rfl)
          · obtain ⟨h1, h2, h3, h4⟩ := hsl.redParts
            exact .black rfl h1 (mk _ rfl (.black h2 hsr) fun _ => rfl)

/-- `maintainAfterRemove` makes up for a missing black node at the end of a path. -/
theorem fixD_rb {fs : List (Frame K V)} : ∀ {n : Nat}, CRB fs (n + 1) → CRB (fixD fs) n := by
  induction fs with
  | nil => intro n _; exact .nil
  | cons f fs ih =>
    intro n hc
    obtain ⟨b, fi, fc, fk, fv, fo⟩ := f
    unfold fixD
    cases hc with
    | black hf ho hc =>
      simp only at hf ho
      subst hf
      cases fo with
      | nil => exact absurd ho.nil_height (by simp)
      | node si sc sl sk sv sr =>
        cases sc
        · exact fixBlack_rb ho rfl (.inr ⟨rfl, hc, ih hc⟩)
        · obtain ⟨h1, h2, h3, h4⟩ := ho.redParts
          cases b
          · exact fixBlack_rb h2 h4 (.inl ⟨rfl, rfl, .black rfl h1 hc⟩)
          · exact fixBlack_rb h1 h3 (.inl ⟨rfl, rfl, .black rfl h2 hc⟩)
    | red hf ho hb ht hc =>
      simp only at hf ho hb
      subst hf
      cases fo with
      | nil => exact absurd ho.nil_height (by simp)
      | node si sc sl sk sv sr =>
        simp only [T.isRed_node] at hb
        subst hb
        exact fixBlack_rb ho rfl (.inl ⟨rfl, ht, hc⟩)

end Verif.RBTree
