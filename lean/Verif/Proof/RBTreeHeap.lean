import Verif.Model.RBTree
import Mathlib.Tactic.Tauto

/-!
Helper lemmas for `RBTree`: trees with addresses, contexts, what it means that the heap holds them, and the
effect of the rotations on them.
-/
namespace Verif.RBTree

variable {K V : Type}

/-! ## Programs that do not fail -/

/-- The program ends without undefined behaviour, with a result and a state satisfying `Q`. -/
def Ok {α : Type} (m : M K V α) (s : St K V) (Q : α → St K V → Prop) : Prop :=
  ∃ a s', m s = some (a, s') ∧ Q a s'

theorem Ok.mono {α : Type} {m : M K V α} {s : St K V} {Q R : α → St K V → Prop} (h : Ok m s Q)
    (i : ∀ a s', Q a s' → R a s') : Ok m s R := by
  obtain ⟨a, s', e, q⟩ := h
  exact ⟨a, s', e, i a s' q⟩

theorem ok_pure {α : Type} (a : α) (s : St K V) (Q : α → St K V → Prop) :
    Ok (pure a : M K V α) s Q ↔ Q a s := by
  constructor
  · rintro ⟨a', s', e, q⟩
    have e : some (a, s) = some (a', s') := e
    cases e
    exact q
  · intro q
    exact ⟨a, s, rfl, q⟩

theorem ok_bind {α β : Type} (m : M K V α) (f : α → M K V β) (s : St K V) (Q : β → St K V → Prop) :
    Ok (m >>= f) s Q ↔ Ok m s fun a s' => Ok (f a) s' Q := by
  constructor
  · rintro ⟨b, s', e, q⟩
    change (match m s with | none => none | some (a, s') => f a s') = some (b, s') at e
    cases h : m s with
    | none => rw [h] at e; simp at e
    | some r =>
      rw [h] at e
      exact ⟨r.1, r.2, h, b, s', e, q⟩
  · rintro ⟨a, s', e, b, s'', e', q⟩
    refine ⟨b, s'', ?_, q⟩
    change (match m s with | none => none | some (a, s') => f a s') = some (b, s'')
    rw [e]
    exact e'

theorem ok_rd (p : Nat) (s : St K V) (Q : Node K V → St K V → Prop) :
    Ok (rd p) s Q ↔ ∃ n, s.heap p = some n ∧ Q n s := by
  unfold Ok rd
  cases s.heap p <;> simp
  constructor
  · rintro ⟨_, _, ⟨rfl, rfl⟩, q⟩; exact q
  · intro q; exact ⟨_, _, ⟨rfl, rfl⟩, q⟩

theorem ok_wr (p : Nat) (f : Node K V → Node K V) (s : St K V) (Q : Unit → St K V → Prop) :
    Ok (wr p f) s Q ↔ ∃ n, s.heap p = some n ∧ Q () (s.set p (some (f n))) := by
  unfold Ok wr
  cases s.heap p with
  | none => simp
  | some n =>
    simp only [Option.some.injEq, Prod.mk.injEq]
    exact ⟨fun ⟨_, _, ⟨_, e⟩, q⟩ => ⟨n, rfl, e ▸ q⟩, fun ⟨_, e, q⟩ => ⟨(), _, ⟨trivial, rfl⟩, e ▸ q⟩⟩

theorem ok_free (p : Nat) (s : St K V) (Q : Unit → St K V → Prop) :
    Ok (free p) s Q ↔ ∃ n, s.heap p = some n ∧ Q () (s.set p none) := by
  unfold Ok free
  cases s.heap p with
  | none => simp
  | some n =>
    simp only [Option.some.injEq, Prod.mk.injEq]
    exact ⟨fun ⟨_, _, ⟨_, e⟩, q⟩ => ⟨n, rfl, e ▸ q⟩, fun ⟨_, _, q⟩ => ⟨(), _, ⟨trivial, rfl⟩, q⟩⟩

theorem ok_of_eq {α : Type} {m : M K V α} {s : St K V} {a : α} {s' : St K V} (h : m s = some (a, s'))
    (Q : α → St K V → Prop) : Ok m s Q ↔ Q a s' := by
  constructor
  · rintro ⟨b, s'', e, q⟩
    rw [h] at e
    cases e
    exact q
  · intro q
    exact ⟨_, _, h, q⟩

theorem ok_alloc (k : K) (v : V) (s : St K V) (Q : Nat → St K V → Prop) :
    Ok (alloc k v) s Q ↔
      Q s.next { s.set s.next (some ⟨true, 0, 0, 0, k, v⟩) with next := s.next + 1 } :=
  ok_of_eq rfl Q

theorem ok_theRoot (s : St K V) (Q : Nat → St K V → Prop) : Ok theRoot s Q ↔ Q s.root s := ok_of_eq rfl Q

theorem ok_theHeader (s : St K V) (Q : Nat → St K V → Prop) : Ok theHeader s Q ↔ Q s.header s :=
  ok_of_eq rfl Q

theorem ok_size (s : St K V) (Q : Nat → St K V → Prop) : Ok size s Q ↔ Q s.cnt s := ok_of_eq rfl Q

theorem ok_setRoot (p : Nat) (s : St K V) (Q : Unit → St K V → Prop) :
    Ok (setRoot p) s Q ↔ Q () { s with root := p } := ok_of_eq rfl Q

theorem ok_setCnt (n : Nat) (s : St K V) (Q : Unit → St K V → Prop) :
    Ok (setCnt n) s Q ↔ Q () { s with cnt := n } := ok_of_eq rfl Q

theorem ok_assert (b : Bool) (s : St K V) (Q : Unit → St K V → Prop) :
    Ok (assertThat b) s Q ↔ b = true ∧ Q () s := by
  cases b
  · simp [Ok, assertThat]
  · rw [ok_of_eq (show assertThat true s = some ((), s) from rfl)]
    simp

theorem ok_fuelled {α : Type} (f : Nat → M K V α) (s : St K V) (Q : α → St K V → Prop) :
    Ok (fuelled f) s Q ↔ Ok (f s.next) s Q := Iff.rfl

theorem ok_adopt (c p : Nat) (s : St K V) (Q : Unit → St K V → Prop) :
    Ok (adopt c p) s Q ↔
      if c = 0 then Q () s else ∃ n, s.heap c = some n ∧ Q () (s.set c (some { n with parent := p })) := by
  unfold adopt
  split
  · exact ok_pure _ _ _
  · exact ok_wr _ _ _ _

@[simp] theorem set_heap (s : St K V) (p : Nat) (n : Option (Node K V)) (x : Nat) :
    (s.set p n).heap x = if x = p then n else s.heap x := rfl

@[simp] theorem set_root (s : St K V) (p : Nat) (n : Option (Node K V)) : (s.set p n).root = s.root := rfl

@[simp] theorem set_header (s : St K V) (p : Nat) (n : Option (Node K V)) :
    (s.set p n).header = s.header := rfl

@[simp] theorem set_cnt (s : St K V) (p : Nat) (n : Option (Node K V)) : (s.set p n).cnt = s.cnt := rfl

@[simp] theorem set_next (s : St K V) (p : Nat) (n : Option (Node K V)) : (s.set p n).next = s.next := rfl

/-! ## Trees and contexts -/

/-- Binary trees whose nodes carry their address, colour, key and value. -/
inductive T (K V : Type)
  | nil
  | node (id : Nat) (red : Bool) (l : T K V) (k : K) (v : V) (r : T K V)

namespace T

/-- Address of the root. -/
def ptr : T K V → Nat
  | nil => 0
  | node id _ _ _ _ _ => id

/-- Addresses, in order. -/
def ids : T K V → List Nat
  | nil => []
  | node id _ l _ _ r => l.ids ++ id :: r.ids

/-- Entries, in order. -/
def list : T K V → List (Nat × K × V)
  | nil => []
  | node id _ l k v r => l.list ++ (id, k, v) :: r.list

/-- Colour of the root; `nil` counts as black. -/
def isRed : T K V → Bool
  | nil => false
  | node _ c _ _ _ _ => c

def paint (c : Bool) : T K V → T K V
  | nil => nil
  | node id _ l k v r => node id c l k v r

@[simp] theorem ptr_nil : (nil : T K V).ptr = 0 := rfl
@[simp] theorem ptr_node (id c l k v r) : (node id c l k v r : T K V).ptr = id := rfl
@[simp] theorem ids_nil : (nil : T K V).ids = [] := rfl
@[simp] theorem ids_node (id c l k v r) : (node id c l k v r : T K V).ids = l.ids ++ id :: r.ids := rfl
@[simp] theorem list_nil : (nil : T K V).list = [] := rfl
@[simp] theorem list_node (id c l k v r) :
    (node id c l k v r : T K V).list = l.list ++ (id, k, v) :: r.list := rfl
@[simp] theorem isRed_nil : (nil : T K V).isRed = false := rfl
@[simp] theorem isRed_node (id c l k v r) : (node id c l k v r : T K V).isRed = c := rfl
@[simp] theorem paint_nil (c) : (nil : T K V).paint c = nil := rfl
@[simp] theorem paint_node (c' id c l k v r) :
    (node id c l k v r : T K V).paint c' = node id c' l k v r := rfl

theorem ids_eq (t : T K V) : t.ids = t.list.map (·.1) := by
  induction t with
  | nil => rfl
  | node id c l k v r hl hr => simp [hl, hr]

theorem ptr_mem {t : T K V} (h : t.ptr ≠ 0) : t.ptr ∈ t.ids := by
  cases t <;> simp_all

end T

/-- One step of a path from the root: the node passed, the subtree left aside, and whether the path goes
left. -/
structure Frame (K V : Type) where
  lft : Bool
  id : Nat
  red : Bool
  k : K
  v : V
  oth : T K V

/-- A node with the subtree `t` on the path. -/
def Frame.fill (f : Frame K V) (t : T K V) : T K V :=
  if f.lft then .node f.id f.red t f.k f.v f.oth else .node f.id f.red f.oth f.k f.v t

/-- The fields of the node of a frame. -/
def Frame.cell (f : Frame K V) (par hole : Nat) : Node K V :=
  if f.lft then ⟨f.red, par, hole, f.oth.ptr, f.k, f.v⟩ else ⟨f.red, par, f.oth.ptr, hole, f.k, f.v⟩

/-- The whole tree, from a path (innermost frame first) and the subtree at its end. -/
def plug : List (Frame K V) → T K V → T K V
  | [], t => t
  | f :: fs, t => plug fs (f.fill t)

/-- Parent of the subtree at the end of a path. -/
def up (hdr : Nat) : List (Frame K V) → Nat
  | [] => hdr
  | f :: _ => f.id

/-- Addresses on and beside a path. -/
def idsC : List (Frame K V) → List Nat
  | [] => []
  | f :: fs => f.id :: f.oth.ids ++ idsC fs

@[simp] theorem plug_nil (t : T K V) : plug [] t = t := rfl
@[simp] theorem plug_cons (f : Frame K V) (fs) (t : T K V) : plug (f :: fs) t = plug fs (f.fill t) := rfl
@[simp] theorem up_nil (hdr : Nat) : up hdr ([] : List (Frame K V)) = hdr := rfl
@[simp] theorem up_cons (hdr : Nat) (f : Frame K V) (fs) : up hdr (f :: fs) = f.id := rfl
@[simp] theorem idsC_nil : idsC ([] : List (Frame K V)) = [] := rfl
@[simp] theorem idsC_cons (f : Frame K V) (fs) : idsC (f :: fs) = f.id :: f.oth.ids ++ idsC fs := rfl
@[simp] theorem fill_ptr (f : Frame K V) (t : T K V) : (f.fill t).ptr = f.id := by
  unfold Frame.fill; split <;> rfl

theorem plug_ptr (f : Frame K V) (fs : List (Frame K V)) (t t' : T K V) :
    (plug (f :: fs) t).ptr = (plug (f :: fs) t').ptr := by
  induction fs generalizing f t t' with
  | nil => simp
  | cons g fs ih => simpa using ih g (f.fill t) (f.fill t')

theorem plug_ptr_mem (f : Frame K V) (fs : List (Frame K V)) (t : T K V) :
    (plug (f :: fs) t).ptr ∈ idsC (f :: fs) := by
  induction fs generalizing f t with
  | nil => simp
  | cons g fs ih =>
    have := ih g (f.fill t)
    simp only [plug_cons, idsC_cons, List.mem_append, List.mem_cons] at this ⊢
    tauto

theorem up_mem (hdr : Nat) (f : Frame K V) (fs : List (Frame K V)) : up hdr (f :: fs) ∈ idsC (f :: fs) := by
  simp

/-! ## What the heap holds -/

/-- The heap holds the tree, below `par`. -/
def Tr (h : Nat → Option (Node K V)) : Nat → T K V → Prop
  | _, .nil => True
  | par, .node id c l k v r =>
    h id = some ⟨c, par, l.ptr, r.ptr, k, v⟩ ∧ Tr h id l ∧ Tr h id r

/-- The heap holds the path, with `hole` at its end. -/
def Cx (h : Nat → Option (Node K V)) (hdr : Nat) : List (Frame K V) → Nat → Prop
  | [], _ => True
  | f :: fs, hole => h f.id = some (f.cell (up hdr fs) hole) ∧ Tr h f.id f.oth ∧ Cx h hdr fs f.id

theorem Tr.congr {h h' : Nat → Option (Node K V)} {par : Nat} {t : T K V} (ht : Tr h par t)
    (e : ∀ x ∈ t.ids, h' x = h x) : Tr h' par t := by
  induction t generalizing par with
  | nil => trivial
  | node id c l k v r hl hr =>
    obtain ⟨h1, h2, h3⟩ := ht
    refine ⟨?_, hl h2 ?_, hr h3 ?_⟩
    · rw [e id (by simp), h1]
    · intro x hx; exact e x (by simp [hx])
    · intro x hx; exact e x (by simp [hx])

theorem Cx.congr {h h' : Nat → Option (Node K V)} {hdr hole : Nat} {fs : List (Frame K V)}
    (hc : Cx h hdr fs hole) (e : ∀ x ∈ idsC fs, h' x = h x) : Cx h' hdr fs hole := by
  induction fs generalizing hole with
  | nil => trivial
  | cons f fs ih =>
    obtain ⟨h1, h2, h3⟩ := hc
    refine ⟨?_, h2.congr ?_, ih h3 ?_⟩
    · rw [e f.id (by simp), h1]
    · intro x hx; exact e x (by simp [hx])
    · intro x hx; exact e x (by simp [hx])

theorem tr_fill {h : Nat → Option (Node K V)} {par : Nat} {f : Frame K V} {t : T K V} :
    Tr h par (f.fill t) ↔ h f.id = some (f.cell par t.ptr) ∧ Tr h f.id f.oth ∧ Tr h f.id t := by
  unfold Frame.fill Frame.cell
  split
  · simp [Tr]; tauto
  · simp [Tr]

/-- The heap of `s` holds exactly the header and the tree `plug fs t`. -/
structure Conf (s : St K V) (hl hr : Nat) (fs : List (Frame K V)) (t : T K V) : Prop where
  nd : (0 :: s.header :: (t.ids ++ idsC fs)).Nodup
  hd : ∃ k v, s.heap s.header = some ⟨true, s.root, hl, hr, k, v⟩
  rt : s.root = (plug fs t).ptr
  tr : Tr s.heap (up s.header fs) t
  cx : Cx s.heap s.header fs t.ptr
  lv : ∀ x, s.heap x ≠ none ↔ x ∈ s.header :: (t.ids ++ idsC fs)
  nx : ∀ x ∈ s.header :: (t.ids ++ idsC fs), x < s.next

/-- `header`, `cnt` and `next` are the same. -/
def Same (s s' : St K V) : Prop := s'.header = s.header ∧ s'.cnt = s.cnt ∧ s'.next = s.next

theorem Same.refl (s : St K V) : Same s s := ⟨rfl, rfl, rfl⟩

theorem Same.trans {s s' s'' : St K V} (h : Same s s') (h' : Same s' s'') : Same s s'' :=
  ⟨h'.1.trans h.1, h'.2.1.trans h.2.1, h'.2.2.trans h.2.2⟩

/-- The focus moves up or down without a change of state. -/
theorem conf_fill {s : St K V} {hl hr : Nat} {f : Frame K V} {fs : List (Frame K V)} {t : T K V} :
    Conf s hl hr fs (f.fill t) ↔ Conf s hl hr (f :: fs) t := by
  have hp : ((f.fill t).ids ++ idsC fs).Perm (t.ids ++ idsC (f :: fs)) := by
    refine List.perm_iff_count.2 fun a => ?_
    unfold Frame.fill
    split
    · simp [List.count_append, List.count_cons]
    · simp [List.count_append, List.count_cons]; omega
  have hm : ∀ x, x ∈ s.header :: ((f.fill t).ids ++ idsC fs) ↔ x ∈ s.header :: (t.ids ++ idsC (f :: fs)) :=
    fun x => (hp.cons _).mem_iff
  constructor
  · intro c
    obtain ⟨t1, t2, t3⟩ := tr_fill.1 c.tr
    refine ⟨((hp.cons _).cons _).nodup_iff.1 c.nd, c.hd, c.rt, t3, ⟨t1, t2, ?_⟩, ?_, ?_⟩
    · simpa using c.cx
    · intro x; rw [c.lv, hm]
    · intro x hx; exact c.nx x ((hm x).2 hx)
  · intro c
    obtain ⟨c1, c2, c3⟩ := c.cx
    refine ⟨((hp.cons _).cons _).nodup_iff.2 c.nd, c.hd, c.rt, tr_fill.2 ⟨c1, c2, c.tr⟩, ?_, ?_, ?_⟩
    · simpa using c3
    · intro x; rw [c.lv, hm]
    · intro x hx; exact c.nx x ((hm x).1 hx)

theorem conf_plug {s : St K V} {hl hr : Nat} {fs : List (Frame K V)} {t : T K V} :
    Conf s hl hr fs t ↔ Conf s hl hr [] (plug fs t) := by
  induction fs generalizing t with
  | nil => rfl
  | cons f fs ih => rw [plug_cons, ← ih, conf_fill]

/-! ## Navigation -/

/-- Direction of the subtree at the end of a path. -/
def dirOf : List (Frame K V) → Dir
  | [] => .root
  | f :: _ => if f.lft then .left else .right

theorem Conf.isRoot {s : St K V} {hl hr : Nat} {fs : List (Frame K V)} {id c l k v r}
    (h : Conf s hl hr fs (.node id c l k v r)) (Q : Bool → St K V → Prop) :
    Ok (isRoot id) s Q ↔ Q fs.isEmpty s := by
  unfold RBTree.isRoot
  rw [ok_bind, ok_theRoot, ok_pure, h.rt]
  cases fs with
  | nil => simp
  | cons f fs =>
    have hm := plug_ptr_mem f fs (.node id c l k v r)
    have hne : (plug (f :: fs) (.node id c l k v r)).ptr ≠ id := by
      intro e
      rw [e] at hm
      have := h.nd
      simp only [List.nodup_cons, List.nodup_append] at this
      exact this.2.2.2.2 id (by simp) id hm rfl
    rw [beq_eq_false_iff_ne.2 hne]
    rfl

theorem Conf.getDirection {s : St K V} {hl hr : Nat} {fs : List (Frame K V)} {id c l k v r}
    (h : Conf s hl hr fs (.node id c l k v r)) (Q : Dir → St K V → Prop) :
    Ok (getDirection id) s Q ↔ Q (dirOf fs) s := by
  unfold RBTree.getDirection
  rw [ok_bind, h.isRoot]
  cases fs with
  | nil => simp [ok_pure, dirOf]
  | cons f fs =>
    have ht := h.tr.1
    have hc := h.cx.1
    simp only [up_cons] at ht
    have hne : id ≠ f.oth.ptr := by
      intro e
      have hnd := h.nd
      have := T.ptr_mem (t := f.oth)
      simp at hnd
      grind
    simp only [List.isEmpty_cons, Bool.false_eq_true, if_false, ok_bind, ok_rd, ht, hc, Option.some.injEq,
      exists_eq_left', dirOf]
    cases hf : f.lft <;> simp [Frame.cell, hf, ok_pure, hne]


/-! ## Rotations -/

/-- `s'` differs from `s` only in the nodes at addresses in `P`, and has the same live addresses. -/
structure Eff (P : Nat → Prop) (s s' : St K V) : Prop where
  frame : ∀ x, ¬ P x → s'.heap x = s.heap x
  live : ∀ x, s'.heap x ≠ none ↔ s.heap x ≠ none
  same : Same s s'

theorem Eff.trans {P P' : Nat → Prop} {s s' s'' : St K V} (h : Eff P s s') (h' : Eff P' s' s'') :
    Eff (fun x => P x ∨ P' x) s s'' :=
  ⟨fun x hx => (h'.frame x fun q => hx (.inr q)).trans (h.frame x fun q => hx (.inl q)),
    fun x => (h'.live x).trans (h.live x), h.same.trans h'.same⟩

theorem eff_set {s : St K V} {p : Nat} {n n' : Node K V} (h : s.heap p = some n) :
    Eff (· = p) s (s.set p (some n')) := by
  refine ⟨fun x hx => by simp [hx], fun x => ?_, rfl, rfl, rfl⟩
  by_cases e : x = p <;> simp [e, h]

/-- `adopt` gives the tree a new parent. -/
theorem adopt_ok {s : St K V} {q p : Nat} {t : T K V} (ht : Tr s.heap q t) (nd : (0 :: t.ids).Nodup) :
    Ok (adopt t.ptr p) s fun _ s' => Tr s'.heap p t ∧ Eff (· ∈ t.ids) s s' ∧ s'.root = s.root := by
  rw [ok_adopt]
  cases t with
  | nil => exact ⟨trivial, ⟨fun _ _ => rfl, fun _ => Iff.rfl, rfl, rfl, rfl⟩, rfl⟩
  | node id c l k v r =>
    obtain ⟨h1, h2, h3⟩ := ht
    simp only [T.ids_node, List.nodup_cons, List.nodup_append, List.mem_append, List.mem_cons] at nd
    have h0 : id ≠ 0 := by grind
    simp only [T.ptr_node, if_neg h0, h1, Option.some.injEq, exists_eq_left']
    refine ⟨⟨by simp, h2.congr ?_, h3.congr ?_⟩, ?_, rfl⟩
    · intro x hx; have : x ≠ id := by grind
      simp [this]
    · intro x hx; have : x ≠ id := by grind
      simp [this]
    · have := eff_set (n' := ⟨c, p, l.ptr, r.ptr, k, v⟩) h1
      exact ⟨fun x hx => this.frame x (by grind [T.ids_node]), this.live, this.same⟩

/-- The pointer to the end of a path is changed. -/
theorem relink_ok {s : St K V} {hl hr hole q : Nat} {k : K} {v : V} {fs : List (Frame K V)}
    (hc : Cx s.heap s.header fs hole)
    (hh : s.heap s.header = some ⟨true, s.root, hl, hr, k, v⟩) (nd : (s.header :: idsC fs).Nodup) :
    Ok (relink (dirOf fs) (up s.header fs) q) s fun _ s' =>
      Cx s'.heap s'.header fs q ∧ s'.heap s'.header = some ⟨true, s'.root, hl, hr, k, v⟩ ∧
        s'.root = (if fs.isEmpty then q else s.root) ∧
        Eff (· ∈ s.header :: idsC fs) s s' := by
  cases fs with
  | nil =>
    simp only [dirOf, relink, ok_bind, ok_theHeader, ok_wr, hh, Option.some.injEq, exists_eq_left',
      ok_setRoot]
    refine ⟨trivial, by simp, by simp, ?_⟩
    have := eff_set (n' := (⟨true, q, hl, hr, k, v⟩ : Node K V)) hh
    exact ⟨fun x hx => this.frame x (by simpa using hx), this.live, this.same⟩
  | cons f fs =>
    obtain ⟨h1, h2, h3⟩ := hc
    simp only [idsC_cons, List.nodup_cons, List.nodup_append, List.mem_append, List.mem_cons,
      List.cons_append] at nd
    have hne : s.header ≠ f.id := by grind
    have e1 : ∀ n : Node K V, Tr (s.set f.id (some n)).heap f.id f.oth := by
      intro n
      refine h2.congr fun x hx => ?_
      have : x ≠ f.id := by grind
      simp [this]
    have e2 : ∀ n : Node K V, Cx (s.set f.id (some n)).heap s.header fs f.id := by
      intro n
      refine h3.congr fun x hx => ?_
      have : x ≠ f.id := by grind
      simp [this]
    have e3 : ∀ n : Node K V, Eff (· ∈ s.header :: idsC (f :: fs)) s (s.set f.id (some n)) := by
      intro n
      have := eff_set (n' := n) h1
      exact ⟨fun x hx => this.frame x (by intro e; subst e; simp at hx), this.live, this.same⟩
    cases hf : f.lft <;> simp only [dirOf, hf, relink, up_cons, ok_wr, h1, Option.some.injEq,
      exists_eq_left', if_true, Bool.false_eq_true, if_false] <;>
    refine ⟨⟨by simp [Frame.cell, hf], e1 _, e2 _⟩, by simp [hne, hh], by simp, e3 _⟩

theorem maintain_ok {s : St K V} {p q q' : Nat} {l r : T K V} {c par k v}
    (hp : s.heap p = some ⟨c, par, l.ptr, r.ptr, k, v⟩) (ht : Tr s.heap q l) (ht' : Tr s.heap q' r)
    (nd : (0 :: p :: (l.ids ++ r.ids)).Nodup) :
    Ok (maintainRelationship p) s fun _ s' =>
      Tr s'.heap p l ∧ Tr s'.heap p r ∧ Eff (fun x => x ∈ l.ids ∨ x ∈ r.ids) s s' ∧ s'.root = s.root := by
  simp only [List.nodup_cons, List.nodup_append, List.mem_append, List.mem_cons] at nd
  simp only [maintainRelationship, ok_bind, ok_rd, hp, Option.some.injEq, exists_eq_left']
  refine Ok.mono (adopt_ok (p := p) ht (by grind)) ?_
  rintro _ s1 ⟨h1, e1, r1⟩
  have hp1 : s1.heap p = some ⟨c, par, l.ptr, r.ptr, k, v⟩ := by
    rw [e1.frame p (by grind), hp]
  simp only [hp1, Option.some.injEq, exists_eq_left']
  refine Ok.mono (adopt_ok (p := p) (ht'.congr fun x hx => e1.frame x (by grind)) (by grind)) ?_
  rintro _ s2 ⟨h2, e2, r2⟩
  exact ⟨h1.congr fun x hx => e2.frame x (by grind), h2, e1.trans e2, r2.trans r1⟩

theorem rotateLeft_ok {s : St K V} {hl hr : Nat} {fs : List (Frame K V)} {n c l k v m c' x k' v' r}
    (h : Conf s hl hr fs (.node n c l k v (.node m c' x k' v' r))) :
    Ok (rotateLeft n) s fun _ s' =>
      Conf s' hl hr fs (.node m c' (.node n c l k v x) k' v' r) ∧ Same s s' := by
  obtain ⟨t1, tl, t2, tx, tr⟩ := h.tr
  obtain ⟨hk, hv, hh⟩ := h.hd
  have hnd := h.nd
  simp only [T.ids_node, List.nodup_cons, List.nodup_append, List.mem_append, List.mem_cons,
      List.cons_append, List.append_assoc] at hnd
  have hm0 : m ≠ 0 := by grind
  have hmn : m ≠ n := by grind
  simp only [T.ptr_node] at t1
  unfold rotateLeft
  simp only [ok_bind, ok_rd, t1, t2, Option.some.injEq, exists_eq_left', ok_assert, h.getDirection,
    ok_wr, set_heap, if_neg hmn]
  refine ⟨by simpa using hm0, ?_⟩
  generalize hs2 : (s.set n _).set m _ = s2
  have w1 := eff_set (n' := ⟨c, up s.header fs, l.ptr, x.ptr, k, v⟩) t1
  have w2 := eff_set (s := s.set n (some ⟨c, up s.header fs, l.ptr, x.ptr, k, v⟩)) (p := m)
    (n' := ⟨c', n, n, r.ptr, k', v'⟩) (by rw [set_heap, if_neg hmn, t2])
  have e2 := w1.trans w2
  rw [hs2] at e2
  have n2 : s2.heap n = some ⟨c, up s.header fs, l.ptr, x.ptr, k, v⟩ := by
    subst hs2; simp [hmn.symm]
  have m2 : s2.heap m = some ⟨c', n, n, r.ptr, k', v'⟩ := by
    subst hs2; simp
  have r2 : s2.root = s.root := by subst hs2; rfl
  refine Ok.mono (maintain_ok (p := n) n2 (tl.congr fun y hy => e2.frame y (by grind))
    (tx.congr fun y hy => e2.frame y (by grind)) (by
      simp only [List.nodup_cons, List.nodup_append, List.mem_append, List.mem_cons]; grind)) ?_
  rintro _ s3 ⟨l3, x3, e3, r3⟩
  have n3 : s3.heap n = some ⟨c, up s.header fs, l.ptr, x.ptr, k, v⟩ := by
    rw [e3.frame n (by grind), n2]
  have m3 : s3.heap m = some ⟨c', n, n, r.ptr, k', v'⟩ := by
    rw [e3.frame m (by grind), m2]
  have tr3 : Tr s3.heap m r := (tr.congr fun y hy => e2.frame y (by grind)).congr
    fun y hy => e3.frame y (by grind)
  refine Ok.mono (maintain_ok (p := m) (l := .node n c l k v x) (r := r) (q := up s.header fs) m3
    ⟨n3, l3, x3⟩ tr3 (by
      simp only [List.nodup_cons, List.nodup_append, List.mem_append, List.mem_cons, T.ids_node]; grind)) ?_
  rintro _ s4 ⟨n4, r4, e4, q4⟩
  have e24 := (e2.trans e3).trans e4
  have hd4 : s4.header = s.header := e24.same.1
  have m4 : s4.heap m = some ⟨c', n, n, r.ptr, k', v'⟩ := by
    rw [e4.frame m (by simp only [T.ids_node, List.mem_append, List.mem_cons]; grind), m3]
  have hh4 : s4.heap s4.header = some ⟨true, s4.root, hl, hr, hk, hv⟩ := by
    rw [hd4, e24.frame s.header (by simp only [T.ids_node, List.mem_append, List.mem_cons]; grind), hh, q4,
      r3, r2]
  have c4 : Cx s4.heap s4.header fs n := by
    rw [hd4]
    exact Cx.congr h.cx fun y hy => e24.frame y (by
      simp only [T.ids_node, List.mem_append, List.mem_cons]; grind)
  have := relink_ok (q := m) c4 hh4 (by
      rw [hd4]; simp only [List.nodup_cons]; grind)
  rw [hd4] at this
  refine Ok.mono this ?_
  rintro _ s5 ⟨c5, hh5, r5, e5⟩
  have hd5 : s5.header = s.header := e5.same.1.trans hd4
  have m5 : s5.heap m = some ⟨c', n, n, r.ptr, k', v'⟩ := by
    rw [e5.frame m (by simp only [List.mem_cons]; grind), m4]
  rw [m5]
  simp only [Option.some.injEq, exists_eq_left']
  have e6 := eff_set (n' := ⟨c', up s.header fs, n, r.ptr, k', v'⟩) m5
  have e26 := (e24.trans e5).trans e6
  refine ⟨⟨?_, ⟨hk, hv, ?_⟩, ?_, ⟨?_, ?_, ?_⟩, ?_, ?_, ?_⟩, e26.same⟩
  · rw [set_header, hd5]
    simpa using h.nd
  · rw [e6.frame _ (by rw [set_header, hd5]; grind)]
    exact hh5
  · rw [set_root, r5]
    cases fs with
    | nil => rfl
    | cons f fs =>
      rw [List.isEmpty_cons, if_neg (by simp)]
      rw [q4, r3, r2, h.rt]
      exact plug_ptr f fs _ _
  · simp [hd5]
  · refine (n4.congr fun y hy => e5.frame y ?_).congr fun y hy => e6.frame y ?_
    · simp only [T.ids_node, List.mem_append, List.mem_cons] at hy ⊢; grind
    · simp only [T.ids_node, List.mem_append, List.mem_cons] at hy ⊢; grind
  · refine (r4.congr fun y hy => e5.frame y ?_).congr fun y hy => e6.frame y ?_
    · simp only [List.mem_cons] at hy ⊢; grind
    · grind
  · exact c5.congr fun y hy => e6.frame y (by grind)
  · intro y
    rw [e26.live, h.lv, set_header, hd5]
    simp
  · intro y hy
    rw [e26.same.2.2]
    refine h.nx y ?_
    rw [set_header, hd5] at hy
    simpa using hy

theorem rotateRight_ok {s : St K V} {hl hr : Nat} {fs : List (Frame K V)} {n c l k v m c' x k' v' r}
    (h : Conf s hl hr fs (.node n c (.node m c' r k' v' x) k v l)) :
    Ok (rotateRight n) s fun _ s' =>
      Conf s' hl hr fs (.node m c' r k' v' (.node n c x k v l)) ∧ Same s s' := by
  obtain ⟨t1, ⟨t2, tr, tx⟩, tl⟩ := h.tr
  obtain ⟨hk, hv, hh⟩ := h.hd
  have hnd := h.nd
  simp only [T.ids_node, List.nodup_cons, List.nodup_append, List.mem_append, List.mem_cons,
      List.cons_append, List.append_assoc] at hnd
  have hm0 : m ≠ 0 := by grind
  have hmn : m ≠ n := by grind
  simp only [T.ptr_node] at t1
  unfold rotateRight
  simp only [ok_bind, ok_rd, t1, t2, Option.some.injEq, exists_eq_left', ok_assert, h.getDirection,
    ok_wr, set_heap, if_neg hmn]
  refine ⟨by simpa using hm0, ?_⟩
  generalize hs2 : (s.set n _).set m _ = s2
  have w1 := eff_set (n' := ⟨c, up s.header fs, x.ptr, l.ptr, k, v⟩) t1
  have w2 := eff_set (s := s.set n (some ⟨c, up s.header fs, x.ptr, l.ptr, k, v⟩)) (p := m)
    (n' := ⟨c', n, r.ptr, n, k', v'⟩) (by rw [set_heap, if_neg hmn, t2])
  have e2 := w1.trans w2
  rw [hs2] at e2
  have n2 : s2.heap n = some ⟨c, up s.header fs, x.ptr, l.ptr, k, v⟩ := by
    subst hs2; simp [hmn.symm]
  have m2 : s2.heap m = some ⟨c', n, r.ptr, n, k', v'⟩ := by
    subst hs2; simp
  have r2 : s2.root = s.root := by subst hs2; rfl
  refine Ok.mono (maintain_ok (p := n) n2 (tx.congr fun y hy => e2.frame y (by grind))
    (tl.congr fun y hy => e2.frame y (by grind)) (by
      simp only [List.nodup_cons, List.nodup_append, List.mem_append, List.mem_cons]; grind)) ?_
  rintro _ s3 ⟨x3, l3, e3, r3⟩
  have n3 : s3.heap n = some ⟨c, up s.header fs, x.ptr, l.ptr, k, v⟩ := by
    rw [e3.frame n (by grind), n2]
  have m3 : s3.heap m = some ⟨c', n, r.ptr, n, k', v'⟩ := by
    rw [e3.frame m (by grind), m2]
  have tr3 : Tr s3.heap m r := (tr.congr fun y hy => e2.frame y (by grind)).congr
    fun y hy => e3.frame y (by grind)
  refine Ok.mono (maintain_ok (p := m) (l := r) (r := .node n c x k v l) (q' := up s.header fs) m3
    tr3 ⟨n3, x3, l3⟩ (by
      simp only [List.nodup_cons, List.nodup_append, List.mem_append, List.mem_cons, T.ids_node]; grind)) ?_
  rintro _ s4 ⟨r4, n4, e4, q4⟩
  have e24 := (e2.trans e3).trans e4
  have hd4 : s4.header = s.header := e24.same.1
  have m4 : s4.heap m = some ⟨c', n, r.ptr, n, k', v'⟩ := by
    rw [e4.frame m (by simp only [T.ids_node, List.mem_append, List.mem_cons]; grind), m3]
  have hh4 : s4.heap s4.header = some ⟨true, s4.root, hl, hr, hk, hv⟩ := by
    rw [hd4, e24.frame s.header (by simp only [T.ids_node, List.mem_append, List.mem_cons]; grind), hh, q4,
      r3, r2]
  have c4 : Cx s4.heap s4.header fs n := by
    rw [hd4]
    exact Cx.congr h.cx fun y hy => e24.frame y (by
      simp only [T.ids_node, List.mem_append, List.mem_cons]; grind)
  have := relink_ok (q := m) c4 hh4 (by
      rw [hd4]; simp only [List.nodup_cons]; grind)
  rw [hd4] at this
  refine Ok.mono this ?_
  rintro _ s5 ⟨c5, hh5, r5, e5⟩
  have hd5 : s5.header = s.header := e5.same.1.trans hd4
  have m5 : s5.heap m = some ⟨c', n, r.ptr, n, k', v'⟩ := by
    rw [e5.frame m (by simp only [List.mem_cons]; grind), m4]
  rw [m5]
  simp only [Option.some.injEq, exists_eq_left']
  have e6 := eff_set (n' := ⟨c', up s.header fs, r.ptr, n, k', v'⟩) m5
  have e26 := (e24.trans e5).trans e6
  refine ⟨⟨?_, ⟨hk, hv, ?_⟩, ?_, ⟨?_, ?_, ?_⟩, ?_, ?_, ?_⟩, e26.same⟩
  · rw [set_header, hd5]
    simpa using h.nd
  · rw [e6.frame _ (by rw [set_header, hd5]; grind)]
    exact hh5
  · rw [set_root, r5]
    cases fs with
    | nil => rfl
    | cons f fs =>
      rw [List.isEmpty_cons, if_neg (by simp)]
      rw [q4, r3, r2, h.rt]
      exact plug_ptr f fs _ _
  · simp [hd5]
  · refine (r4.congr fun y hy => e5.frame y ?_).congr fun y hy => e6.frame y ?_
    · simp only [List.mem_cons] at hy ⊢; grind
    · grind
  · refine (n4.congr fun y hy => e5.frame y ?_).congr fun y hy => e6.frame y ?_
    · simp only [T.ids_node, List.mem_append, List.mem_cons] at hy ⊢; grind
    · simp only [T.ids_node, List.mem_append, List.mem_cons] at hy ⊢; grind
  · exact c5.congr fun y hy => e6.frame y (by grind)
  · intro y
    rw [e26.live, h.lv, set_header, hd5]
    simp
  · intro y hy
    rw [e26.same.2.2]
    refine h.nx y ?_
    rw [set_header, hd5] at hy
    simpa using hy

/-! ## Other writes to the tree -/

/-- Colour, key and value of the node at the end of the path are changed. -/
theorem wr_ok {s : St K V} {hl hr : Nat} {fs : List (Frame K V)} {id c l k v r} {f : Node K V → Node K V}
    {c' k' v'} (h : Conf s hl hr fs (.node id c l k v r))
    (hf : ∀ a b d, f ⟨c, a, b, d, k, v⟩ = ⟨c', a, b, d, k', v'⟩) :
    Ok (wr id f) s fun _ s' => Conf s' hl hr fs (.node id c' l k' v' r) ∧ Same s s' := by
  obtain ⟨t1, tl, tr⟩ := h.tr
  obtain ⟨hk, hv, hh⟩ := h.hd
  have hnd := h.nd
  simp only [T.ids_node, List.nodup_cons, List.nodup_append, List.mem_append, List.mem_cons,
      List.cons_append, List.append_assoc] at hnd
  simp only [ok_wr, t1, Option.some.injEq, exists_eq_left', hf]
  have e := eff_set (n' := ⟨c', up s.header fs, l.ptr, r.ptr, k', v'⟩) t1
  refine ⟨⟨h.nd, ⟨hk, hv, ?_⟩, ?_, ⟨by simp, ?_, ?_⟩, ?_, ?_, h.nx⟩, e.same⟩
  · rw [e.frame _ (by rw [set_header]; grind), set_header, hh, set_root]
  · rw [set_root, h.rt]
    cases fs with
    | nil => rfl
    | cons f fs => exact plug_ptr f fs _ _
  · exact tl.congr fun y hy => e.frame y (by grind)
  · exact tr.congr fun y hy => e.frame y (by grind)
  · exact Cx.congr h.cx fun y hy => e.frame y (by grind)
  · intro y
    rw [e.live, h.lv, set_header]
    simp

theorem paint_ok {s : St K V} {hl hr : Nat} {fs : List (Frame K V)} {id c l k v r} (c' : Bool)
    (h : Conf s hl hr fs (.node id c l k v r)) :
    Ok (paint id c') s fun _ s' => Conf s' hl hr fs (.node id c' l k v r) ∧ Same s s' :=
  wr_ok h fun _ _ _ => rfl

/-- `left` and `right` of the header are changed. -/
theorem wrHeader_ok {s : St K V} {hl hr hl' hr' : Nat} {fs : List (Frame K V)} {t : T K V}
    {f : Node K V → Node K V} (h : Conf s hl hr fs t)
    (hf : ∀ p k v, f ⟨true, p, hl, hr, k, v⟩ = ⟨true, p, hl', hr', k, v⟩) :
    Ok (wr s.header f) s fun _ s' => Conf s' hl' hr' fs t ∧ Same s s' := by
  obtain ⟨hk, hv, hh⟩ := h.hd
  have hnd := h.nd
  simp only [List.nodup_cons, List.nodup_append, List.mem_append, List.mem_cons] at hnd
  simp only [ok_wr, hh, Option.some.injEq, exists_eq_left', hf]
  have e := eff_set (n' := (⟨true, s.root, hl', hr', hk, hv⟩ : Node K V)) hh
  refine ⟨⟨h.nd, ⟨hk, hv, by simp⟩, h.rt, ?_, ?_, ?_, h.nx⟩, e.same⟩
  · exact h.tr.congr fun y hy => e.frame y (by grind)
  · exact h.cx.congr fun y hy => e.frame y (by grind)
  · intro y
    rw [e.live, h.lv, set_header]

end Verif.RBTree
