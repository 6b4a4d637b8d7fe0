import Verif.Proof.Bvh
/-! Invariant of the parallel refit of bounding volume hierarchies. -/
namespace Verif.Bvh

variable {B : Type}

namespace Tree

theorem sub_parent {t : Tree} : ∀ {c : Nat} {u : Tree}, t.sub c = some u → c ≠ 0 →
    ∃ v l r, t.sub v = some (node l r) ∧ (c = v + 1 ∨ c = v + 1 + l.size) := by
  induction t with
  | leaf p =>
    intro c u h hc
    cases c with
    | zero => exact absurd rfl hc
    | succ c => cases h
  | node a b iha ihb =>
    intro c u h _
    cases c with
    | zero => omega
    | succ c =>
      simp only [sub] at h
      split at h
      · by_cases h0 : c = 0
        · exact ⟨0, a, b, rfl, .inl (by omega)⟩
        · obtain ⟨v, l, r, h1, h2⟩ := iha h h0
          refine ⟨v + 1, l, r, ?_, by omega⟩
          have := sub_lt h1
          simp only [sub]
          rw [if_pos this]
          exact h1
      · by_cases h0 : c - a.size = 0
        · exact ⟨0, a, b, rfl, .inr (by omega)⟩
        · obtain ⟨v, l, r, h1, h2⟩ := ihb h h0
          refine ⟨v + a.size + 1, l, r, ?_, by omega⟩
          simp only [sub]
          rw [if_neg (by omega), show v + a.size - a.size = v by omega]
          exact h1

theorem leafPos_bounds (t : Tree) : ∀ (v : Nat), ∀ x ∈ t.leafPos v, v ≤ x ∧ x < v + t.size := by
  induction t with
  | leaf p => intro v x hx; simp only [leafPos, List.mem_singleton] at hx; simp only [size]; omega
  | node l r ihl ihr =>
    intro v x hx
    simp only [leafPos, List.mem_append] at hx
    simp only [size]
    rcases hx with hx | hx
    · have := ihl _ x hx; omega
    · have := ihr _ x hx; omega

theorem leafPos_nodup (t : Tree) : ∀ v, (t.leafPos v).Nodup := by
  induction t with
  | leaf p => intro v; simp [leafPos]
  | node l r ihl ihr =>
    intro v
    simp only [leafPos]
    refine List.nodup_append.2 ⟨ihl _, ihr _, ?_⟩
    intro a ha b hb e
    subst e
    have h1 := leafPos_bounds l _ a ha
    have h2 := leafPos_bounds r _ a hb
    omega

theorem mem_leafPos (t : Tree) : ∀ (w v p : Nat), t.sub v = some (leaf p) → w + v ∈ t.leafPos w := by
  induction t with
  | leaf q =>
    intro w v p h
    cases v with
    | zero => simp [leafPos]
    | succ v => cases h
  | node l r ihl ihr =>
    intro w v p h
    cases v with
    | zero => cases h
    | succ v =>
      simp only [sub] at h
      simp only [leafPos, List.mem_append]
      split at h
      · exact .inl (by have := ihl (w + 1) v p h; rwa [show w + 1 + v = w + (v + 1) by omega] at this)
      · exact .inr (by
          have := ihr (w + 1 + l.size) _ p h
          rwa [show w + 1 + l.size + (v - l.size) = w + (v + 1) by omega] at this)

end Tree

section
variable {t : Bvh B} {tr : Tree} (hl : Layout t tr)
include hl

theorem Layout.right {v : Nat} {l r : Tree} (hv : tr.sub v = some (.node l r)) : rightChild t v = some ((v + 1 + l.size : Nat) : Int) := by
  obtain ⟨h1, h2⟩ := Tree.sub_node hv
  have hlt := Tree.sub_lt h2
  unfold rightChild
  rw [show (v : Int) + 1 = ((v + 1 : Nat) : Int) by omega, at?_nat, at?_nat, hl.levels _ _ h1]
  cases l with
  | leaf p =>
    simp only [Tree.spine, Tree.size, Option.bind_some]
    rw [if_neg (by simp)]
    congr 1
  | node a b =>
    simp only [Tree.spine, Option.bind_some]
    rw [if_pos (by simp), hl.escape _ _ _ h1, if_neg (by omega)]

theorem Layout.parent {c : Nat} {u : Tree} (hc : tr.sub c = some u) (h0 : c ≠ 0) :
    ∃ v l r, tr.sub v = some (.node l r) ∧ (c = v + 1 ∨ c = v + 1 + l.size) ∧ t.parents[c]? = some (v : Int) := by
  obtain ⟨v, l, r, h1, h2⟩ := Tree.sub_parent hc h0
  refine ⟨v, l, r, h1, h2, ?_⟩
  rcases h2 with rfl | rfl
  · exact hl.parentL v l r h1
  · exact hl.parentR v l r h1

theorem Layout.leaf_at {k c : Nat} (h : t.leafInds[k]? = some c) : ∃ p, tr.sub c = some (.leaf p) := by
  rw [hl.leafInds, ← Tree.leavesAt_fst, List.getElem?_map] at h
  obtain ⟨x, hx, rfl⟩ := Option.map_eq_some_iff.1 h
  exact ⟨_, Tree.leavesAt_sub (Tree.sub_zero tr) x (List.mem_of_getElem? hx)⟩

theorem Layout.leaf_inj {k k' c : Nat} (h : t.leafInds[k]? = some c) (h' : t.leafInds[k']? = some c) : k = k' := by
  rw [hl.leafInds] at h h'
  exact (List.getElem?_inj (by rw [List.getElem?_eq_some_iff] at h; exact h.1) (Tree.leafPos_nodup tr 0)).1 (h.trans h'.symm)

end

theorem getElem?_idxOf' : ∀ {l : List Nat} {c : Nat}, c ∈ l → l[l.idxOf c]? = some c := by
  intro l c
  induction l with
  | nil => intro h; cases h
  | cons a l ih =>
    intro h
    rw [List.idxOf_cons]
    by_cases e : a = c
    · subst e; simp
    · rw [show (a == c) = false by simpa using e]
      simp only [cond_false, List.getElem?_cons_succ]
      rcases List.mem_cons.1 h with h | h
      · exact absurd h.symm e
      · exact ih h

/-! ## The invariant -/

/-- What has happened at a node: nothing; task `k` makes its box; task `k` has made it and goes to the parent; it has been there. -/
inductive Mark where
  | idle
  | busy (k : Nat)
  | held (k : Nat)
  | spent

/-- The box has been made. -/
def Mark.made (m : Mark) : Prop := (∃ k, m = .held k) ∨ m = .spent

def Mark.owner (m : Mark) (k : Nat) : Prop := m = .busy k ∨ m = .held k

variable (t : Bvh B) (tr : Tree) (prim : Nat → B) (merge : B → B → B)

/-- What a task knows. -/
def Knows (st : Nat → Mark) (k : Nat) : Pc B → Prop
  | .start => ∃ c, t.leafInds[k]? = some c ∧ st c = .busy k
  | .arrive w => ∃ v l r c, w = (v : Nat) ∧ tr.sub v = some (.node l r) ∧ (c = v + 1 ∨ c = v + 1 + l.size) ∧ st c = .held k
  | .left w => ∃ v l r, w = (v : Nat) ∧ tr.sub v = some (.node l r) ∧ st v = .busy k
  | .right w b => ∃ v l r, w = (v : Nat) ∧ tr.sub v = some (.node l r) ∧ st v = .busy k ∧ b = l.box prim merge
  | .put w b => ∃ v l r, w = (v : Nat) ∧ tr.sub v = some (.node l r) ∧ st v = .busy k ∧ b = (Tree.node l r).box prim merge
  | .done => ∀ c, c < tr.size → ¬ (st c).owner k

structure Inv (n : Nat) (s : Refit B) (st : Nat → Mark) : Prop where
  lenB : s.bvs.length = tr.size
  lenF : s.flags.length = tr.size
  good : ∀ c u, tr.sub c = some u → (∃ k, st c = .held k) ∨ st c = .spent → s.bvs[c]? = some (u.box prim merge)
  flag0 : ∀ v l r, tr.sub v = some (.node l r) → s.flags[v]? = some 0 → st (v + 1) ≠ .spent ∧ st (v + 1 + l.size) ≠ .spent
  flag1 : ∀ v l r f, tr.sub v = some (.node l r) → s.flags[v]? = some f → f ≠ 0 → st (v + 1) = .spent ∨ st (v + 1 + l.size) = .spent
  idle : ∀ v l r, tr.sub v = some (.node l r) → (st v ≠ .idle ↔ st (v + 1) = .spent ∧ st (v + 1 + l.size) = .spent)
  leaf : ∀ v p, tr.sub v = some (.leaf p) → st v ≠ .idle
  task : ∀ k, k < n → Knows t tr prim merge st k (s.pc k)
  own : ∀ c k, c < tr.size → (st c).owner k → k < n
  uniq : ∀ c c' k, c < tr.size → c' < tr.size → (st c).owner k → (st c').owner k → c = c'

variable {t tr prim merge}

theorem Knows.congr {st st' : Nat → Mark} {k : Nat} {pc : Pc B}
    (h1 : ∀ c, c < tr.size → (st c).owner k → st' c = st c) (h2 : ∀ c, c < tr.size → (st' c).owner k → st' c = st c)
    (hl : Layout t tr) (h : Knows t tr prim merge st k pc) : Knows t tr prim merge st' k pc := by
  cases pc with
  | start =>
    obtain ⟨c, e, hc⟩ := h
    obtain ⟨p, hp⟩ := hl.leaf_at e
    exact ⟨c, e, by rw [h1 c (Tree.sub_lt hp) (.inl hc)]; exact hc⟩
  | arrive w =>
    obtain ⟨v, l, r, c, e, hv, hc, hs⟩ := h
    refine ⟨v, l, r, c, e, hv, hc, ?_⟩
    have : c < tr.size := by
      obtain ⟨h3, h4⟩ := Tree.sub_node hv
      rcases hc with rfl | rfl
      · exact Tree.sub_lt h3
      · exact Tree.sub_lt h4
    rw [h1 c this (.inr hs)]; exact hs
  | left w =>
    obtain ⟨v, l, r, e, hv, hs⟩ := h
    exact ⟨v, l, r, e, hv, by rw [h1 v (Tree.sub_lt hv) (.inl hs)]; exact hs⟩
  | right w b =>
    obtain ⟨v, l, r, e, hv, hs, hb⟩ := h
    exact ⟨v, l, r, e, hv, by rw [h1 v (Tree.sub_lt hv) (.inl hs)]; exact hs, hb⟩
  | put w b =>
    obtain ⟨v, l, r, e, hv, hs, hb⟩ := h
    exact ⟨v, l, r, e, hv, by rw [h1 v (Tree.sub_lt hv) (.inl hs)]; exact hs, hb⟩
  | done =>
    intro c hc ho
    have := h2 c hc ho
    rw [this] at ho
    exact h c hc ho

/-! ## Steps -/

/-- The cell of the array of boxes that the next step of task `k` writes. -/
def writes (t : Bvh B) (s : Refit B) (k : Nat) : Option Int :=
  match s.pc k with
  | .start => t.leafInds[k]?.map fun c : Nat => (c : Int)
  | .put v _ => some v
  | _ => none

def upd {A : Type} (f : Nat → A) (i : Nat) (x : A) : Nat → A := fun j => if j = i then x else f j

theorem upd_self {A : Type} (f : Nat → A) (i : Nat) (x : A) : upd f i x i = x := if_pos rfl

theorem upd_other {A : Type} (f : Nat → A) {i j : Nat} (x : A) (h : j ≠ i) : upd f i x j = f j := if_neg h

def total (f : Nat → Nat) (n : Nat) : Nat := ((List.range n).map f).sum

theorem total_succ (f : Nat → Nat) (n : Nat) : total f (n + 1) = total f n + f n := by
  unfold total
  rw [List.range_succ, List.map_append, List.sum_append]
  simp

theorem total_upd (f : Nat → Nat) (i x : Nat) : ∀ n, (i < n → total (upd f i x) n + f i = total f n + x) ∧ (n ≤ i → total (upd f i x) n = total f n) := by
  intro n
  induction n with
  | zero => exact ⟨fun h => absurd h (Nat.not_lt_zero _), fun _ => rfl⟩
  | succ n ih =>
    rw [total_succ, total_succ]
    refine ⟨fun h => ?_, fun h => ?_⟩
    · by_cases hn : i = n
      · subst hn
        rw [ih.2 (Nat.le_refl _), upd_self]
        omega
      · rw [upd_other _ _ (fun h' => hn h'.symm)]
        have := ih.1 (by omega)
        omega
    · rw [ih.2 (by omega), upd_other _ _ (by omega)]

def Mark.weight : Mark → Nat
  | .idle => 10
  | .busy _ => 2
  | .held _ => 1
  | .spent => 0

def Pc.weight : Pc B → Nat
  | .start => 1
  | .arrive _ => 0
  | .left _ => 3
  | .right _ _ => 2
  | .put _ _ => 1
  | .done => 0

/-- How many steps there may still be. -/
def todo (tr : Tree) (n : Nat) (s : Refit B) (st : Nat → Mark) : Nat :=
  total (fun c => (st c).weight) tr.size + total (fun k => (s.pc k).weight) n

theorem total_mark (st : Nat → Mark) {c N : Nat} (m : Mark) (hc : c < N) :
    total (fun j => (upd st c m j).weight) N + (st c).weight = total (fun j => (st j).weight) N + m.weight := by
  have := (total_upd (fun j => (st j).weight) c m.weight N).1 hc
  have e : (fun j => (upd st c m j).weight) = upd (fun j => (st j).weight) c m.weight := by
    funext j
    unfold upd
    split <;> rfl
  rw [e]
  exact this

theorem total_pc (s : Refit B) {k n : Nat} (p : Pc B) (hk : k < n) :
    total (fun j => ((s.goto k p).pc j).weight) n + (s.pc k).weight = total (fun j => (s.pc j).weight) n + p.weight := by
  have := (total_upd (fun j => (s.pc j).weight) k p.weight n).1 hk
  have e : (fun j => ((s.goto k p).pc j).weight) = upd (fun j => (s.pc j).weight) k p.weight := by
    funext j
    simp only [Refit.goto, upd]
    split <;> rfl
  rw [e]
  exact this

theorem goto_self (s : Refit B) (k : Nat) (p : Pc B) : (s.goto k p).pc k = p := if_pos rfl

theorem goto_other (s : Refit B) {k j : Nat} (p : Pc B) (h : j ≠ k) : (s.goto k p).pc j = s.pc j := if_neg h

section
variable (hl : Layout t tr)
include hl

theorem Layout.child_parent {v c : Nat} {l r : Tree} (hv : tr.sub v = some (.node l r)) (hc : c = v + 1 ∨ c = v + 1 + l.size) :
    t.parents[c]? = some (v : Int) ∧ c < tr.size := by
  obtain ⟨h1, h2⟩ := Tree.sub_node hv
  rcases hc with rfl | rfl
  · exact ⟨hl.parentL v l r hv, Tree.sub_lt h1⟩
  · exact ⟨hl.parentR v l r hv, Tree.sub_lt h2⟩

theorem Layout.one_parent {v w c : Nat} {l r l' r' : Tree} (hv : tr.sub v = some (.node l r)) (hc : c = v + 1 ∨ c = v + 1 + l.size)
    (hw : tr.sub w = some (.node l' r')) (hc' : c = w + 1 ∨ c = w + 1 + l'.size) : v = w := by
  have h1 := (hl.child_parent hv hc).1
  rw [(hl.child_parent hw hc').1] at h1
  exact (Int.ofNat.inj (Option.some.inj h1)).symm

/-- A task that has made the box of its node writes it and goes on to the parent. -/
theorem Inv.finish {n k c : Nat} {s : Refit B} {st : Nat → Mark} {u : Tree} (hi : Inv t tr prim merge n s st) (hk : k < n)
    (hc : tr.sub c = some u) (hb : st c = .busy k) (hw : 1 ≤ (s.pc k).weight) :
    ∃ s' st', ((putBox s.bvs c (u.box prim merge)).bind fun bvs => Refit.up t { s with bvs := bvs } k c) = some s' ∧
      Inv t tr prim merge n s' st' ∧ todo tr n s' st' < todo tr n s st ∧ ∀ d, (st' d).made ↔ (st d).made ∨ d = c := by
  have hlt := Tree.sub_lt hc
  obtain ⟨b, hbv⟩ : ∃ b, s.bvs[c]? = some b := ⟨_, List.getElem?_eq_getElem (by rw [hi.lenB]; exact hlt)⟩
  have hput : putBox s.bvs c (u.box prim merge) = some (s.bvs.set c (u.box prim merge)) := by
    unfold putBox
    rw [at?_nat, hbv]; rfl
  -- the new state, whatever comes next
  have main : ∀ (m : Mark) (pc : Pc B), (m = .held k ∨ (m = .spent ∧ c = 0)) → Knows t tr prim merge (upd st c m) k pc → pc.weight = 0 →
      Inv t tr prim merge n ({ s with bvs := s.bvs.set c (u.box prim merge) }.goto k pc) (upd st c m) ∧
      todo tr n ({ s with bvs := s.bvs.set c (u.box prim merge) }.goto k pc) (upd st c m) < todo tr n s st ∧
      ∀ d, (upd st c m d).made ↔ (st d).made ∨ d = c := by
    intro m pc hm hp hpw
    have hmi : m ≠ .idle := by rcases hm with rfl | ⟨rfl, _⟩ <;> simp
    have hmb : ∀ j, m.owner j → j = k := by
      intro j hj
      rcases hm with rfl | ⟨rfl, _⟩
      · rcases hj with h | h
        · cases h
        · cases h; rfl
      · rcases hj with h | h <;> cases h
    -- children are spent exactly if they were
    have hsp : ∀ v l r, tr.sub v = some (.node l r) → ∀ d, (d = v + 1 ∨ d = v + 1 + l.size) → (upd st c m d = .spent ↔ st d = .spent) := by
      intro v l r hv d hd
      by_cases h : d = c
      · subst h
        rw [upd_self, hb]
        rcases hm with rfl | ⟨rfl, h0⟩
        · simp
        · omega
      · rw [upd_other _ _ h]
    refine ⟨⟨by simpa [Refit.goto] using hi.lenB, hi.lenF, ?_, ?_, ?_, ?_, ?_, ?_, ?_, ?_⟩, ?_, ?_⟩
    · intro c' u' hc' hs
      simp only [Refit.goto]
      by_cases h : c' = c
      · subst h
        rw [hc] at hc'
        cases hc'
        rw [List.getElem?_set_self (by rw [hi.lenB]; exact hlt)]
      · rw [upd_other _ _ h] at hs
        rw [List.getElem?_set_ne (fun h' => h h'.symm)]
        exact hi.good c' u' hc' hs
    · intro v l r hv hf
      have := hi.flag0 v l r hv hf
      rw [Ne, hsp v l r hv _ (.inl rfl), Ne, hsp v l r hv _ (.inr rfl)]
      exact this
    · intro v l r f hv hf hf0
      have := hi.flag1 v l r f hv hf hf0
      rw [hsp v l r hv _ (.inl rfl), hsp v l r hv _ (.inr rfl)]
      exact this
    · intro v l r hv
      rw [hsp v l r hv _ (.inl rfl), hsp v l r hv _ (.inr rfl), ← hi.idle v l r hv]
      by_cases h : v = c
      · subst h
        rw [upd_self, hb]
        exact ⟨fun _ => by simp, fun _ => hmi⟩
      · rw [upd_other _ _ h]
    · intro v p hv
      by_cases h : v = c
      · subst h; rw [upd_self]; exact hmi
      · rw [upd_other _ _ h]; exact hi.leaf v p hv
    · intro j hj
      by_cases h : j = k
      · subst h; rw [goto_self]; exact hp
      · rw [goto_other _ _ h]
        refine (hi.task j hj).congr (fun d _ ho => ?_) (fun d _ ho => ?_) hl
        · by_cases hd : d = c
          · subst hd
            rw [hb] at ho
            rcases ho with ho | ho
            · cases ho; exact absurd rfl h
            · cases ho
          · exact upd_other _ _ hd
        · by_cases hd : d = c
          · subst hd
            rw [upd_self] at ho
            exact absurd (hmb j ho) h
          · exact upd_other _ _ hd
    · intro d j hd ho
      by_cases h : d = c
      · subst h; rw [upd_self] at ho; rw [hmb j ho]; exact hk
      · rw [upd_other _ _ h] at ho; exact hi.own d j hd ho
    · have key : ∀ d j, d < tr.size → (upd st c m d).owner j → (st d).owner j := by
        intro d j hd ho
        by_cases h : d = c
        · subst h; rw [upd_self] at ho; rw [hmb j ho, hb]; exact .inl rfl
        · rw [upd_other _ _ h] at ho; exact ho
      exact fun d d' j hd hd' ho ho' => hi.uniq d d' j hd hd' (key d j hd ho) (key d' j hd' ho')
    · unfold todo
      have e1 := total_mark st m hlt
      have e2 := total_pc { s with bvs := s.bvs.set c (u.box prim merge) } pc hk
      have e3 : m.weight ≤ 1 := by rcases hm with rfl | ⟨rfl, _⟩ <;> simp [Mark.weight]
      have e4 : (st c).weight = 2 := by rw [hb]; rfl
      dsimp only at e2
      omega
    · intro d
      by_cases h : d = c
      · subst h
        rw [upd_self]
        refine ⟨fun _ => .inr rfl, fun _ => ?_⟩
        rcases hm with rfl | ⟨rfl, _⟩
        · exact .inl ⟨k, rfl⟩
        · exact .inr rfl
      · rw [upd_other _ _ h]
        exact ⟨.inl, fun h' => h'.resolve_right h⟩
  rw [hput]
  simp only [Option.bind_some, Refit.up, at?_nat]
  by_cases h0 : c = 0
  · subst h0
    rw [hl.root]
    simp only [Option.map_some, if_true]
    refine ⟨_, upd st 0 .spent, rfl, main .spent .done (.inr ⟨rfl, rfl⟩) ?_ rfl⟩
    intro d hd ho
    by_cases h : d = 0
    · subst h; rw [upd_self] at ho; rcases ho with ho | ho <;> cases ho
    · rw [upd_other _ _ h] at ho
      exact h (hi.uniq d 0 k hd hlt ho (.inl hb))
  · obtain ⟨v, l, r, hv, hcv, hp⟩ := hl.parent hc h0
    rw [hp]
    simp only [Option.map_some]
    rw [if_neg (by omega)]
    exact ⟨_, upd st c (.held k), rfl, main (.held k) (.arrive v) (.inl rfl) ⟨v, l, r, c, rfl, hv, hcv, upd_self _ _ _⟩ rfl⟩

omit hl in
/-- A task that changes nothing but what it knows. -/
theorem Inv.move {n k : Nat} {s : Refit B} {st : Nat → Mark} (hi : Inv t tr prim merge n s st) (hk : k < n) {pc : Pc B}
    (hp : Knows t tr prim merge st k pc) (hw : pc.weight < (s.pc k).weight) :
    Inv t tr prim merge n (s.goto k pc) st ∧ todo tr n (s.goto k pc) st < todo tr n s st := by
  refine ⟨⟨hi.lenB, hi.lenF, hi.good, hi.flag0, hi.flag1, hi.idle, hi.leaf, ?_, hi.own, hi.uniq⟩, ?_⟩
  · intro j hj
    by_cases h : j = k
    · subst h; rw [goto_self]; exact hp
    · rw [goto_other _ _ h]; exact hi.task j hj
  · unfold todo
    have e2 := total_pc s pc hk
    omega

/-- A task that arrives at the parent `v` of its node `c`. -/
theorem Inv.arrive {n k v c : Nat} {l r : Tree} {s : Refit B} {st : Nat → Mark} (hi : Inv t tr prim merge n s st) (hk : k < n)
    (hv : tr.sub v = some (.node l r)) (hc : c = v + 1 ∨ c = v + 1 + l.size) (hs : st c = .held k) {f : Nat} (hf : s.flags[v]? = some f)
    (hw : s.pc k = .arrive v) :
    ∃ st', Inv t tr prim merge n (if f = 0 then { s with flags := s.flags.set v 1 }.goto k .done else s.goto k (.left v)) st' ∧
      todo tr n (if f = 0 then { s with flags := s.flags.set v 1 }.goto k .done else s.goto k (.left v)) st' < todo tr n s st ∧ ∀ d, (st' d).made ↔ (st d).made := by
  have hclt := (hl.child_parent hv hc).2
  have hvlt := Tree.sub_lt hv
  have hcv : c ≠ v := by omega
  have hsz := l.size_pos
  -- both children are not spent
  have hnb : ¬ (st (v + 1) = .spent ∧ st (v + 1 + l.size) = .spent) := by
    rintro ⟨h1, h2⟩
    rcases hc with rfl | rfl
    · rw [hs] at h1; cases h1
    · rw [hs] at h2; cases h2
  have hidle : st v = .idle := by
    cases h : st v with
    | idle => rfl
    | _ => exact absurd ((hi.idle v l r hv).1 (by rw [h]; simp)) hnb
  by_cases hf0 : f = 0
  · subst hf0
    rw [if_pos rfl]
    refine ⟨upd st c .spent, ⟨hi.lenB, by simpa [Refit.goto] using hi.lenF, ?_, ?_, ?_, ?_, ?_, ?_, ?_, ?_⟩, ?_, ?_⟩
    · intro d u hd hsd
      refine hi.good d u hd ?_
      by_cases h : d = c
      · subst h; exact .inl ⟨k, hs⟩
      · rwa [upd_other _ _ h] at hsd
    · intro w l' r' hw' hfw
      simp only [Refit.goto] at hfw
      by_cases h : w = v
      · subst h
        rw [List.getElem?_set_self (by rw [hi.lenF]; exact hvlt)] at hfw
        cases hfw
      · rw [List.getElem?_set_ne (fun h' => h h'.symm)] at hfw
        rw [upd_other _ _ fun e => h (hl.one_parent hw' (.inl e.symm) hv hc),
          upd_other _ _ fun e => h (hl.one_parent hw' (.inr e.symm) hv hc)]
        exact hi.flag0 w l' r' hw' hfw
    · intro w l' r' g hw' hfw hg
      simp only [Refit.goto] at hfw
      by_cases h : w = v
      · subst h
        rw [hv] at hw'
        cases hw'
        rcases hc with h | h
        · exact .inl (by rw [h, upd_self])
        · exact .inr (by rw [h, upd_self])
      · rw [List.getElem?_set_ne (fun h' => h h'.symm)] at hfw
        rw [upd_other _ _ fun e => h (hl.one_parent hw' (.inl e.symm) hv hc),
          upd_other _ _ fun e => h (hl.one_parent hw' (.inr e.symm) hv hc)]
        exact hi.flag1 w l' r' g hw' hfw hg
    · intro w l' r' hw'
      have hii := hi.idle w l' r' hw'
      by_cases h : w = v
      · subst h
        rw [hv] at hw'
        cases hw'
        rw [upd_other _ _ (Ne.symm hcv), hidle]
        refine ⟨fun h => absurd rfl h, fun ⟨h1, h2⟩ => ?_⟩
        obtain ⟨g1, g2⟩ := hi.flag0 w l r hv hf
        rcases hc with rfl | rfl
        · rw [upd_other _ _ (by omega)] at h2; exact absurd h2 g2
        · rw [upd_other _ _ (by omega)] at h1; exact absurd h1 g1
      · rw [upd_other _ (i := c) (j := w + 1) _ fun e => h (hl.one_parent hw' (.inl e.symm) hv hc),
          upd_other _ (i := c) (j := w + 1 + l'.size) _ fun e => h (hl.one_parent hw' (.inr e.symm) hv hc), ← hii]
        by_cases hwc : w = c
        · subst hwc; rw [upd_self, hs]; simp
        · rw [upd_other _ _ hwc]
    · intro w p hp
      by_cases h : w = c
      · subst h; rw [upd_self]; simp
      · rw [upd_other _ _ h]; exact hi.leaf w p hp
    · intro j hj
      by_cases h : j = k
      · subst h
        rw [goto_self]
        intro d hd ho
        by_cases hdc : d = c
        · subst hdc; rw [upd_self] at ho; rcases ho with ho | ho <;> cases ho
        · rw [upd_other _ _ hdc] at ho
          exact hdc (hi.uniq d c j hd hclt ho (.inr hs))
      · rw [goto_other _ _ h]
        refine (hi.task j hj).congr (fun d _ ho => ?_) (fun d _ ho => ?_) hl
        · by_cases hd : d = c
          · subst hd
            rw [hs] at ho
            rcases ho with ho | ho
            · cases ho
            · cases ho; exact absurd rfl h
          · exact upd_other _ _ hd
        · by_cases hd : d = c
          · subst hd; rw [upd_self] at ho; rcases ho with ho | ho <;> cases ho
          · exact upd_other _ _ hd
    · intro d j hd ho
      by_cases h : d = c
      · subst h; rw [upd_self] at ho; rcases ho with ho | ho <;> cases ho
      · rw [upd_other _ _ h] at ho; exact hi.own d j hd ho
    · have key : ∀ d j, (upd st c .spent d).owner j → (st d).owner j := by
        intro d j ho
        by_cases h : d = c
        · subst h; rw [upd_self] at ho; rcases ho with ho | ho <;> cases ho
        · rw [upd_other _ _ h] at ho; exact ho
      exact fun d d' j hd hd' ho ho' => hi.uniq d d' j hd hd' (key d j ho) (key d' j ho')
    · unfold todo
      have e1 := total_mark st .spent hclt
      have e2 := total_pc { s with flags := s.flags.set v 1 } .done hk
      have e4 : (st c).weight = 1 := by rw [hs]; rfl
      have e5 : Mark.spent.weight = 0 := rfl
      have e6 : (Pc.done : Pc B).weight = 0 := rfl
      have e7 : (s.pc k).weight = 0 := by rw [hw]; rfl
      dsimp only at e2
      omega
    · intro d
      by_cases h : d = c
      · subst h
        rw [upd_self, hs]
        exact ⟨fun _ => .inl ⟨k, rfl⟩, fun _ => .inr rfl⟩
      · rw [upd_other _ _ h]
  · rw [if_neg hf0]
    have hor := hi.flag1 v l r f hv hf hf0
    -- now both are
    have hboth : upd (upd st c .spent) v (.busy k) (v + 1) = .spent ∧ upd (upd st c .spent) v (.busy k) (v + 1 + l.size) = .spent := by
      rw [upd_other _ _ (by omega), upd_other _ (i := v) _ (by omega)]
      rcases hc with h | h
      · subst h
        rw [upd_self, upd_other _ _ (by omega)]
        rcases hor with h | h
        · rw [hs] at h; cases h
        · exact ⟨rfl, h⟩
      · subst h
        rw [upd_self, upd_other _ _ (by omega)]
        rcases hor with h | h
        · exact ⟨h, rfl⟩
        · rw [hs] at h; cases h
    have hsp : ∀ d, d ≠ c → (upd (upd st c .spent) v (.busy k) d = .spent ↔ st d = .spent) := by
      intro d hd
      by_cases h : d = v
      · subst h; rw [upd_self, hidle]; simp
      · rw [upd_other _ _ h, upd_other _ _ hd]
    have hown : ∀ d j, (upd (upd st c .spent) v (.busy k) d).owner j → (d = v ∧ j = k) ∨ (d ≠ v ∧ d ≠ c ∧ (st d).owner j) := by
      intro d j ho
      by_cases h : d = v
      · subst h
        rw [upd_self] at ho
        rcases ho with ho | ho
        · cases ho; exact .inl ⟨rfl, rfl⟩
        · cases ho
      · rw [upd_other _ _ h] at ho
        by_cases hdc : d = c
        · subst hdc; rw [upd_self] at ho; rcases ho with ho | ho <;> cases ho
        · rw [upd_other _ _ hdc] at ho
          exact .inr ⟨h, hdc, ho⟩
    refine ⟨upd (upd st c .spent) v (.busy k), ⟨hi.lenB, hi.lenF, ?_, ?_, ?_, ?_, ?_, ?_, ?_, ?_⟩, ?_, ?_⟩
    · intro d u hd hsd
      refine hi.good d u hd ?_
      by_cases h : d = v
      · subst h; rw [upd_self] at hsd; rcases hsd with ⟨_, h⟩ | h <;> cases h
      · rw [upd_other _ _ h] at hsd
        by_cases h : d = c
        · subst h; exact .inl ⟨k, hs⟩
        · rwa [upd_other _ _ h] at hsd
    · intro w l' r' hw' hfw
      by_cases h : w = v
      · subst h
        rw [show s.flags[w]? = some 0 from hfw] at hf
        cases hf
        exact absurd rfl hf0
      · rw [Ne, hsp _ fun e => h (hl.one_parent hw' (.inl e.symm) hv hc), Ne, hsp _ fun e => h (hl.one_parent hw' (.inr e.symm) hv hc)]
        exact hi.flag0 w l' r' hw' hfw
    · intro w l' r' g hw' hfw hg
      by_cases h : w = v
      · subst h
        rw [hv] at hw'
        cases hw'
        exact .inl hboth.1
      · rw [hsp _ fun e => h (hl.one_parent hw' (.inl e.symm) hv hc), hsp _ fun e => h (hl.one_parent hw' (.inr e.symm) hv hc)]
        exact hi.flag1 w l' r' g hw' hfw hg
    · intro w l' r' hw'
      have hii := hi.idle w l' r' hw'
      by_cases h : w = v
      · subst h
        rw [hv] at hw'
        cases hw'
        refine ⟨fun _ => hboth, fun _ => ?_⟩
        rw [upd_self]; simp
      · rw [hsp _ fun e => h (hl.one_parent hw' (.inl e.symm) hv hc), hsp _ fun e => h (hl.one_parent hw' (.inr e.symm) hv hc), ← hii,
          upd_other _ _ h]
        by_cases hwc : w = c
        · subst hwc; rw [upd_self, hs]; simp
        · rw [upd_other _ _ hwc]
    · intro w p hp
      have hwv : w ≠ v := by rintro rfl; rw [hv] at hp; cases hp
      rw [upd_other _ _ hwv]
      by_cases h : w = c
      · subst h; rw [upd_self]; simp
      · rw [upd_other _ _ h]; exact hi.leaf w p hp
    · intro j hj
      by_cases h : j = k
      · subst h
        rw [goto_self]
        exact ⟨v, l, r, rfl, hv, upd_self _ _ _⟩
      · rw [goto_other _ _ h]
        refine (hi.task j hj).congr (fun d _ ho => ?_) (fun d _ ho => ?_) hl
        · have h1 : d ≠ v := by rintro rfl; rw [hidle] at ho; rcases ho with ho | ho <;> cases ho
          have h2 : d ≠ c := by
            rintro rfl
            rw [hs] at ho
            rcases ho with ho | ho
            · cases ho
            · cases ho; exact absurd rfl h
          rw [upd_other _ _ h1, upd_other _ _ h2]
        · rcases hown d j ho with ⟨_, h'⟩ | ⟨h1, h2, _⟩
          · exact absurd h' h
          · rw [upd_other _ _ h1, upd_other _ _ h2]
    · intro d j hd ho
      rcases hown d j ho with ⟨_, h'⟩ | ⟨_, _, h'⟩
      · rw [h']; exact hk
      · exact hi.own d j hd h'
    · intro d d' j hd hd' ho ho'
      rcases hown d j ho with ⟨h1, h2⟩ | ⟨h1, h2, h3⟩ <;> rcases hown d' j ho' with ⟨g1, g2⟩ | ⟨g1, g2, g3⟩
      · rw [h1, g1]
      · rw [h2] at g3; exact absurd (hi.uniq d' c k hd' hclt g3 (.inr hs)) g2
      · rw [g2] at h3; exact absurd (hi.uniq d c k hd hclt h3 (.inr hs)) h2
      · exact hi.uniq d d' j hd hd' h3 g3
    · unfold todo
      have e1 := total_mark st .spent hclt
      have e1' := total_mark (upd st c .spent) (.busy k) hvlt
      have e2 := total_pc s (.left v) hk
      have e3 : (st v).weight = 10 := by rw [hidle]; rfl
      have e4 : (st c).weight = 1 := by rw [hs]; rfl
      have e5 : Mark.spent.weight = 0 := rfl
      have e6 : (Pc.left v : Pc B).weight = 3 := rfl
      have e7 : (s.pc k).weight = 0 := by rw [hw]; rfl
      have e8 : (Mark.busy k).weight = 2 := rfl
      rw [upd_other _ _ (Ne.symm hcv)] at e1'
      omega
    · intro d
      by_cases h : d = v
      · subst h
        rw [upd_self, hidle]
        constructor <;> (rintro (⟨_, h⟩ | h) <;> cases h)
      · rw [upd_other _ _ h]
        by_cases h : d = c
        · subst h
          rw [upd_self, hs]
          exact ⟨fun _ => .inl ⟨k, rfl⟩, fun _ => .inr rfl⟩
        · rw [upd_other _ _ h]

/-- Every step of a task that has not ended stays inside the arrays, keeps the invariant and comes nearer to the end. -/
theorem Inv.step {prims : List B} (hprim : ∀ p ∈ tr.prims, prims[p]? = some (prim p)) {n k : Nat} {s : Refit B} {st : Nat → Mark}
    (hi : Inv t tr prim merge n s st) (hk : k < n) : ∃ s' st', s.step t prims merge k = some s' ∧ Inv t tr prim merge n s' st' ∧
      (s.pc k ≠ .done → todo tr n s' st' < todo tr n s st) ∧
      ∀ d : Nat, ((st' d).made ↔ (st d).made ∨ writes t s k = some (d : Int)) ∧ (writes t s k = some (d : Int) → ¬ (st d).made) := by
  have hkn := hi.task k hk
  unfold Refit.step
  cases hpc : s.pc k with
  | start =>
    rw [hpc] at hkn
    obtain ⟨c, hc, hb⟩ := hkn
    obtain ⟨p, hp⟩ := hl.leaf_at hc
    have hmem : p ∈ tr.prims := by
      rw [← Tree.leavesAt_snd tr 0]
      have h1 : c ∈ tr.leafPos 0 := by rw [← hl.leafInds]; exact List.mem_of_getElem? hc
      rw [← Tree.leavesAt_fst] at h1
      obtain ⟨x, hx, rfl⟩ := List.mem_map.1 h1
      have := Tree.leavesAt_sub (Tree.sub_zero tr) x hx
      rw [hp] at this
      cases this
      exact List.mem_map_of_mem hx
    dsimp only
    rw [hc]
    simp only [Option.bind_some]
    rw [at?_nat, hl.prim c p hp]
    simp only [Option.bind_some]
    rw [at?_nat, hprim p hmem]
    simp only [Option.bind_some]
    obtain ⟨s', st', h1, h2, h3, h4⟩ := hi.finish hl hk hp hb (by rw [hpc]; exact Nat.le_refl _)
    refine ⟨s', st', h1, h2, fun _ => h3, fun d => ?_⟩
    have hw : writes t s k = some (c : Int) := by unfold writes; rw [hpc]; dsimp only; rw [hc]; rfl
    have hcd : some (c : Int) = some (d : Int) ↔ d = c := by rw [Option.some.injEq]; omega
    rw [hw, hcd, h4]
    refine ⟨Iff.rfl, ?_⟩
    rintro rfl
    rw [hb]
    rintro (⟨_, h⟩ | h) <;> cases h
  | arrive w =>
    rw [hpc] at hkn
    obtain ⟨v, l, r, c, rfl, hv, hc, hs⟩ := hkn
    obtain ⟨f, hf⟩ : ∃ f, s.flags[v]? = some f := ⟨_, List.getElem?_eq_getElem (by rw [hi.lenF]; exact Tree.sub_lt hv)⟩
    dsimp only
    rw [at?_nat, hf]
    obtain ⟨st', h1, h2, h3⟩ := hi.arrive hl hk hv hc hs hf hpc
    refine ⟨_, st', rfl, h1, fun _ => h2, fun d => ?_⟩
    have hw : writes t s k = none := by unfold writes; rw [hpc]
    rw [hw, h3]
    simp
  | left w =>
    rw [hpc] at hkn
    obtain ⟨v, l, r, rfl, hv, hs⟩ := hkn
    have hkid := (hi.idle v l r hv).1 (by rw [hs]; simp)
    have hg := hi.good _ l (Tree.sub_node hv).1 (.inr hkid.1)
    dsimp only
    rw [show (v : Int) + 1 = ((v + 1 : Nat) : Int) by omega, at?_nat, hg]
    obtain ⟨h1, h2⟩ := hi.move hk (pc := .right v (l.box prim merge)) ⟨v, l, r, rfl, hv, hs, rfl⟩ (by rw [hpc]; simp [Pc.weight])
    have hw : writes t s k = none := by unfold writes; rw [hpc]
    exact ⟨_, st, rfl, h1, fun _ => h2, fun d => by rw [hw]; simp⟩
  | right w b =>
    rw [hpc] at hkn
    obtain ⟨v, l, r, rfl, hv, hs, rfl⟩ := hkn
    have hkid := (hi.idle v l r hv).1 (by rw [hs]; simp)
    have hg := hi.good _ r (Tree.sub_node hv).2 (.inr hkid.2)
    dsimp only
    rw [hl.right hv]
    simp only [Option.bind_some]
    rw [at?_nat, hg]
    obtain ⟨h1, h2⟩ := hi.move hk (pc := .put v ((Tree.node l r).box prim merge)) ⟨v, l, r, rfl, hv, hs, rfl⟩ (by rw [hpc]; simp [Pc.weight])
    have hw : writes t s k = none := by unfold writes; rw [hpc]
    exact ⟨_, st, rfl, h1, fun _ => h2, fun d => by rw [hw]; simp⟩
  | put w b =>
    rw [hpc] at hkn
    obtain ⟨v, l, r, rfl, hv, hs, rfl⟩ := hkn
    obtain ⟨s', st', h1, h2, h3, h4⟩ := hi.finish hl hk hv hs (by rw [hpc]; exact Nat.le_refl _)
    refine ⟨s', st', h1, h2, fun _ => h3, fun d => ?_⟩
    have hw : writes t s k = some (v : Int) := by unfold writes; rw [hpc]
    have hcd : some (v : Int) = some (d : Int) ↔ d = v := by rw [Option.some.injEq]; omega
    rw [hw, hcd, h4]
    refine ⟨Iff.rfl, ?_⟩
    rintro rfl
    rw [hs]
    rintro (⟨_, h⟩ | h) <;> cases h
  | done =>
    have hw : writes t s k = none := by unfold writes; rw [hpc]
    exact ⟨s, st, rfl, hi, fun h => absurd rfl h, fun d => by rw [hw]; simp⟩

omit hl in
/-- When every task has ended every box is right. -/
theorem Inv.final {n : Nat} {s : Refit B} {st : Nat → Mark} (hi : Inv t tr prim merge n s st) (hf : s.finished n) :
    ∀ v u, tr.sub v = some u → s.bvs[v]? = some (u.box prim merge) ∧ (st v).made := by
  have hno : ∀ c, c < tr.size → st c ≠ .idle → st c = .spent := by
    intro c hc h
    have key : ∀ k, ¬ (st c).owner k := by
      intro k ho
      have hk := hi.own c k hc ho
      have := hi.task k hk
      rw [hf k hk] at this
      exact this c hc ho
    cases e : st c with
    | idle => exact absurd e h
    | busy k => exact absurd (.inl e) (key k)
    | held k => exact absurd (.inr e) (key k)
    | spent => rfl
  have hsp : ∀ u v, tr.sub v = some u → st v = .spent := by
    intro u
    induction u with
    | leaf p => intro v hv; exact hno v (Tree.sub_lt hv) (hi.leaf v p hv)
    | node l r ihl ihr =>
      intro v hv
      obtain ⟨h1, h2⟩ := Tree.sub_node hv
      exact hno v (Tree.sub_lt hv) ((hi.idle v l r hv).2 ⟨ihl _ h1, ihr _ h2⟩)
  exact fun v u hv => ⟨hi.good v u hv (.inr (hsp u v hv)), .inr (hsp u v hv)⟩

/-- The state before the refit. -/
theorem Inv.init (hb : t.bvs.length = tr.size) :
    ∃ st, Inv t tr prim merge t.leafInds.length ⟨t.bvs, List.replicate t.numNodes 0, fun _ => .start⟩ st ∧ ∀ d, ¬ (st d).made := by
  have hmem : ∀ v l r, tr.sub v = some (.node l r) → v ∉ tr.leafPos 0 := by
    intro v l r hv h
    rw [← hl.leafInds] at h
    obtain ⟨k, hk⟩ := List.getElem?_of_mem h
    obtain ⟨p, hp⟩ := hl.leaf_at hk
    rw [hv] at hp
    cases hp
  have hidx : ∀ c k, t.leafInds[k]? = some c → (tr.leafPos 0).idxOf c = k := by
    intro c k hk
    have h1 : c ∈ tr.leafPos 0 := by rw [← hl.leafInds]; exact List.mem_of_getElem? hk
    refine hl.leaf_inj (c := c) ?_ hk
    rw [hl.leafInds]
    exact getElem?_idxOf' h1
  refine ⟨fun c => if c ∈ tr.leafPos 0 then .busy ((tr.leafPos 0).idxOf c) else .idle, ⟨hb, by simp [hl.size], ?_, ?_, ?_, ?_, ?_, ?_, ?_, ?_⟩, ?_⟩
  · intro c u _ h
    split at h <;> rcases h with ⟨_, h⟩ | h <;> cases h
  · intro v l r _ _
    refine ⟨?_, ?_⟩ <;> split <;> simp
  · intro v l r f _ hf h0
    dsimp only at hf
    rw [List.getElem?_replicate] at hf
    split at hf
    · cases hf; exact absurd rfl h0
    · cases hf
  · intro v l r hv
    rw [if_neg (hmem v l r hv)]
    refine ⟨fun h => absurd rfl h, fun h => ?_⟩
    have := h.1
    split at this <;> cases this
  · intro v p hv
    have := Tree.mem_leafPos tr 0 v p hv
    rw [Nat.zero_add] at this
    rw [if_pos this]
    simp
  · intro k hk
    obtain ⟨c, hc⟩ : ∃ c, t.leafInds[k]? = some c := ⟨_, List.getElem?_eq_getElem hk⟩
    refine ⟨c, hc, ?_⟩
    dsimp only
    rw [if_pos (by rw [← hl.leafInds]; exact List.mem_of_getElem? hc), hidx c k hc]
  · intro c k _ ho
    split at ho
    · rename_i h
      rcases ho with ho | ho
      · cases ho
        rw [hl.leafInds]
        exact List.idxOf_lt_length_iff.2 h
      · cases ho
    · rcases ho with ho | ho <;> cases ho
  · have key : ∀ c k, (if c ∈ tr.leafPos 0 then Mark.busy ((tr.leafPos 0).idxOf c) else .idle).owner k → (tr.leafPos 0)[k]? = some c := by
      intro c k ho
      split at ho
      · rename_i h
        rcases ho with ho | ho
        · cases ho
          exact getElem?_idxOf' h
        · cases ho
      · rcases ho with ho | ho <;> cases ho
    intro c c' k _ _ ho ho'
    have h1 := key c k ho
    rw [key c' k ho'] at h1
    exact (Option.some.inj h1).symm
  · intro d
    dsimp only
    split <;> (rintro (⟨_, h⟩ | h) <;> cases h)

end

end Verif.Bvh
