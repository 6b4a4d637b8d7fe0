import Verif.Model.Callbacks
/-! # C10: the callback registry -/
namespace Verif.Callbacks

/-- Specification: which callable is registered under which identifier, and how many identifiers
have been handed out. -/
structure Spec (F : Type) where
  reg : Int → Option F
  issued : Int

def specInit {F} : Spec F := ⟨fun _ => none, 0⟩

def put {F} (r : Int → Option F) (k : Int) (v : Option F) : Int → Option F :=
  fun i => if i = k then v else r i

def specStep {F} (s : Spec F) : Op F → Spec F
  | .insert f => ⟨put s.reg s.issued (some f), s.issued + 1⟩
  | .assign id f => ⟨put s.reg id (some f), s.issued⟩
  | .erase id => ⟨put s.reg id none, s.issued⟩
  | .clear => ⟨fun _ => none, s.issued⟩
  | .assignFn f => ⟨put (fun _ => none) s.issued (some f), s.issued + 1⟩

def run {F} (ops : List (Op F)) : CB F := ops.foldl step init
def specRun {F} (ops : List (Op F)) : Spec F := ops.foldl specStep specInit

/-- Every explicit `assign` uses an identifier that has been handed out before. -/
def Valid {F} (s : Spec F) : List (Op F) → Prop
  | [] => True
  | op :: ops => (match op with | .assign id _ => 0 ≤ id ∧ id < s.issued | _ => True) ∧
      Valid (specStep s op) ops

/-- The sorted list `m` represents the registration `r`. -/
def Repr {F} (m : Map F) (r : Int → Option F) : Prop :=
  m.Pairwise (fun a b => a.1 < b.1) ∧ ∀ k f, (k, f) ∈ m ↔ r k = some f

private theorem repr_nil {F} : Repr ([] : Map F) (fun _ => none) := by
  refine ⟨List.Pairwise.nil, ?_⟩
  intro k f; simp

private theorem pw_emplace {F} (k : Int) (f : F) (m : Map F)
    (h : m.Pairwise (fun a b => a.1 < b.1)) :
    (emplace k f m).Pairwise (fun a b => a.1 < b.1) ∧
      ∀ p, p ∈ emplace k f m ↔ p ∈ m ∨ (p = (k, f) ∧ ∀ g, (k, g) ∉ m) := by
  induction m with
  | nil => simp [emplace]
  | cons a m ih =>
    obtain ⟨a, g⟩ := a
    rw [List.pairwise_cons] at h
    obtain ⟨ih1, ih2⟩ := ih h.2
    rw [emplace]
    split
    · rename_i hlt
      constructor
      · refine List.pairwise_cons.mpr ⟨?_, List.pairwise_cons.mpr h⟩
        intro p hp
        rcases List.mem_cons.mp hp with rfl | hp
        · exact hlt
        · have := h.1 p hp; simp only at this ⊢; omega
      · intro p
        have hk : ∀ g', (k, g') ∉ (a, g) :: m := by
          intro g' hm
          rcases List.mem_cons.mp hm with e | hm
          · have := congrArg Prod.fst e; simp only at this; omega
          · have := h.1 _ hm; simp only at this; omega
        constructor
        · intro hp
          rcases List.mem_cons.mp hp with e | hp
          · exact Or.inr ⟨e, hk⟩
          · exact Or.inl hp
        · rintro (hp | ⟨e, -⟩)
          · exact List.mem_cons_of_mem _ hp
          · rw [e]; simp
    · split
      · rename_i h1 heq
        subst heq
        refine ⟨List.pairwise_cons.mpr h, ?_⟩
        intro p
        constructor
        · exact Or.inl
        · rintro (hp | ⟨-, hn⟩)
          · exact hp
          · exact absurd (by simp) (hn g)
      · rename_i h1 hne
        constructor
        · refine List.pairwise_cons.mpr ⟨?_, ih1⟩
          intro p hp
          rcases (ih2 p).mp hp with hp | ⟨rfl, -⟩
          · exact h.1 p hp
          · show a < k; omega
        · intro p
          constructor
          · intro hp
            rcases List.mem_cons.mp hp with e | hp
            · left; simp [e]
            · rcases (ih2 p).mp hp with hp | ⟨e, hn⟩
              · left; simp [hp]
              · right
                refine ⟨e, ?_⟩
                intro g' hm
                rcases List.mem_cons.mp hm with e' | hm
                · exact hne (congrArg Prod.fst e')
                · exact hn g' hm
          · rintro (hp | ⟨e, hn⟩)
            · rcases List.mem_cons.mp hp with e | hp
              · simp [e]
              · exact List.mem_cons_of_mem _ ((ih2 p).mpr (Or.inl hp))
            · refine List.mem_cons_of_mem _ ((ih2 p).mpr (Or.inr ⟨e, ?_⟩))
              intro g' hm; exact hn g' (List.mem_cons_of_mem _ hm)

private theorem repr_emplace {F} (k : Int) (f : F) (m : Map F) (r : Int → Option F)
    (h : Repr m r) (hk : r k = none) : Repr (emplace k f m) (put r k (some f)) := by
  obtain ⟨h1, h2⟩ := pw_emplace k f m h.1
  refine ⟨h1, ?_⟩
  intro i g
  rw [h2, h.2, put]
  have hn : ∀ g, (k, g) ∉ m := by
    intro g hm; rw [h.2, hk] at hm; cases hm
  by_cases e : i = k
  · subst e
    rw [if_pos rfl, hk]
    constructor
    · rintro (h | ⟨e, -⟩)
      · cases h
      · rw [Prod.mk.injEq] at e; rw [e.2]
    · intro h
      right; exact ⟨by rw [Option.some.inj h], hn⟩
  · rw [if_neg e]
    constructor
    · rintro (h | ⟨e', -⟩)
      · exact h
      · rw [Prod.mk.injEq] at e'; exact absurd e'.1 e
    · exact Or.inl

private theorem mem_ioa {F} (k : Int) (f : F) (m : Map F)
    (h : m.Pairwise (fun a b => a.1 < b.1)) :
    (insertOrAssign k f m).Pairwise (fun a b => a.1 < b.1) ∧
      ∀ p, p ∈ insertOrAssign k f m ↔ (p.1 ≠ k ∧ p ∈ m) ∨ p = (k, f) := by
  induction m with
  | nil => simp [insertOrAssign]
  | cons a m ih =>
    obtain ⟨a, g⟩ := a
    rw [List.pairwise_cons] at h
    obtain ⟨ih1, ih2⟩ := ih h.2
    rw [insertOrAssign]
    split
    · rename_i hlt
      constructor
      · refine List.pairwise_cons.mpr ⟨?_, List.pairwise_cons.mpr h⟩
        intro p hp
        rcases List.mem_cons.mp hp with rfl | hp
        · exact hlt
        · have := h.1 p hp; simp only at this ⊢; omega
      · intro p
        constructor
        · intro hp
          rcases List.mem_cons.mp hp with e | hp
          · exact Or.inr e
          · left
            refine ⟨?_, hp⟩
            rcases List.mem_cons.mp hp with rfl | hp
            · show a ≠ k; omega
            · have := h.1 p hp; simp only at this; omega
        · rintro (⟨-, hp⟩ | e)
          · exact List.mem_cons_of_mem _ hp
          · simp [e]
    · split
      · rename_i h1 heq
        subst heq
        constructor
        · refine List.pairwise_cons.mpr ⟨?_, h.2⟩
          intro p hp; exact h.1 p hp
        · intro p
          constructor
          · intro hp
            rcases List.mem_cons.mp hp with e | hp
            · exact Or.inr e
            · left
              refine ⟨?_, List.mem_cons_of_mem _ hp⟩
              have := h.1 p hp; simp only at this; omega
          · rintro (⟨hne, hp⟩ | e)
            · rcases List.mem_cons.mp hp with e | hp
              · exact absurd (congrArg Prod.fst e) hne
              · exact List.mem_cons_of_mem _ hp
            · simp [e]
      · rename_i h1 hne
        constructor
        · refine List.pairwise_cons.mpr ⟨?_, ih1⟩
          intro p hp
          rcases (ih2 p).mp hp with ⟨-, hp⟩ | rfl
          · exact h.1 p hp
          · show a < k; omega
        · intro p
          constructor
          · intro hp
            rcases List.mem_cons.mp hp with e | hp
            · left; refine ⟨?_, by simp [e]⟩
              rw [e]; exact fun e => hne e.symm
            · rcases (ih2 p).mp hp with ⟨hn, hp⟩ | e
              · left; exact ⟨hn, List.mem_cons_of_mem _ hp⟩
              · exact Or.inr e
          · rintro (⟨hn, hp⟩ | e)
            · rcases List.mem_cons.mp hp with e | hp
              · simp [e]
              · exact List.mem_cons_of_mem _ ((ih2 p).mpr (Or.inl ⟨hn, hp⟩))
            · exact List.mem_cons_of_mem _ ((ih2 p).mpr (Or.inr e))

private theorem repr_ioa {F} (k : Int) (f : F) (m : Map F) (r : Int → Option F)
    (h : Repr m r) : Repr (insertOrAssign k f m) (put r k (some f)) := by
  obtain ⟨h1, h2⟩ := mem_ioa k f m h.1
  refine ⟨h1, ?_⟩
  intro i g
  rw [h2, h.2, put]
  by_cases e : i = k
  · subst e
    rw [if_pos rfl]
    constructor
    · rintro (⟨hn, -⟩ | e)
      · exact absurd rfl hn
      · rw [Prod.mk.injEq] at e; rw [e.2]
    · intro h; right; rw [Option.some.inj h]
  · rw [if_neg e]
    constructor
    · rintro (⟨-, h⟩ | e')
      · exact h
      · rw [Prod.mk.injEq] at e'; exact absurd e'.1 e
    · intro h; exact Or.inl ⟨e, h⟩

private theorem mem_erase {F} (k : Int) (m : Map F) (h : m.Pairwise (fun a b => a.1 < b.1)) :
    (eraseKey k m).Pairwise (fun a b => a.1 < b.1) ∧
      ∀ p, p ∈ eraseKey k m ↔ p.1 ≠ k ∧ p ∈ m := by
  induction m with
  | nil => simp [eraseKey]
  | cons a m ih =>
    obtain ⟨a, g⟩ := a
    rw [List.pairwise_cons] at h
    obtain ⟨ih1, ih2⟩ := ih h.2
    rw [eraseKey]
    split
    · rename_i heq
      subst heq
      refine ⟨h.2, ?_⟩
      intro p
      constructor
      · intro hp
        refine ⟨?_, List.mem_cons_of_mem _ hp⟩
        have := h.1 p hp; simp only at this; omega
      · rintro ⟨hn, hp⟩
        rcases List.mem_cons.mp hp with e | hp
        · exact absurd (congrArg Prod.fst e) hn
        · exact hp
    · rename_i hne
      constructor
      · refine List.pairwise_cons.mpr ⟨?_, ih1⟩
        intro p hp; exact h.1 p ((ih2 p).mp hp).2
      · intro p
        constructor
        · intro hp
          rcases List.mem_cons.mp hp with e | hp
          · refine ⟨?_, by simp [e]⟩
            rw [e]; exact fun e => hne e.symm
          · have := (ih2 p).mp hp
            exact ⟨this.1, List.mem_cons_of_mem _ this.2⟩
        · rintro ⟨hn, hp⟩
          rcases List.mem_cons.mp hp with e | hp
          · simp [e]
          · exact List.mem_cons_of_mem _ ((ih2 p).mpr ⟨hn, hp⟩)

private theorem repr_erase {F} (k : Int) (m : Map F) (r : Int → Option F)
    (h : Repr m r) : Repr (eraseKey k m) (put r k none) := by
  obtain ⟨h1, h2⟩ := mem_erase k m h.1
  refine ⟨h1, ?_⟩
  intro i g
  rw [h2, h.2, put]
  by_cases e : i = k
  · subst e; simp
  · simp [e]

private structure Inv {F} (c : CB F) (s : Spec F) : Prop where
  repr : Repr c.funcs s.reg
  num : c.n = s.issued
  pos : 0 ≤ s.issued
  fresh : ∀ k, s.issued ≤ k → s.reg k = none

private theorem inv_step {F} (c : CB F) (s : Spec F) (op : Op F) (h : Inv c s)
    (hv : match op with | .assign id _ => 0 ≤ id ∧ id < s.issued | _ => True) :
    Inv (step c op) (specStep s op) := by
  obtain ⟨hr, hn, hp, hf⟩ := h
  cases op with
  | insert f =>
    refine ⟨?_, ?_, ?_, ?_⟩
    · simp only [step, insert, specStep]
      rw [hn]; exact repr_emplace _ _ _ _ hr (hf _ (Int.le_refl _))
    · simp [step, insert, specStep, hn]
    · simp only [specStep]; omega
    · intro k hk
      simp only [specStep] at hk ⊢
      rw [put, if_neg (by omega)]; exact hf k (by omega)
  | assign id f =>
    refine ⟨repr_ioa _ _ _ _ hr, hn, hp, ?_⟩
    intro k hk
    simp only at hv
    simp only [specStep] at hk ⊢
    rw [put, if_neg (by omega)]; exact hf k (by omega)
  | erase id =>
    refine ⟨repr_erase _ _ _ hr, hn, hp, ?_⟩
    intro k hk
    simp only [specStep] at hk ⊢
    rw [put]; split
    · rfl
    · exact hf k hk
  | clear => exact ⟨repr_nil, hn, hp, fun _ _ => rfl⟩
  | assignFn f =>
    refine ⟨?_, ?_, ?_, ?_⟩
    · simp only [step, assignFn, clear, insert, specStep]
      rw [hn]; exact repr_emplace _ _ _ _ repr_nil rfl
    · simp [step, assignFn, clear, insert, specStep, hn]
    · simp only [specStep]; omega
    · intro k hk
      simp only [specStep] at hk ⊢
      rw [put, if_neg (by omega)]

private theorem inv_foldl {F} (ops : List (Op F)) (c : CB F) (s : Spec F) (h : Inv c s)
    (hv : Valid s ops) : Inv (ops.foldl step c) (ops.foldl specStep s) := by
  induction ops generalizing c s with
  | nil => exact h
  | cons op ops ih => exact ih _ _ (inv_step c s op h hv.1) hv.2

private theorem inv_run {F} (ops : List (Op F)) (hv : Valid specInit ops) :
    Inv (run ops) (specRun ops) :=
  inv_foldl ops _ _ ⟨repr_nil, rfl, Int.le_refl _, fun _ _ => rfl⟩ hv

/-- C10: after any valid history a call runs exactly the registered callables, one per identifier,
in increasing identifier order. -/
theorem call_spec {F} (ops : List (Op F)) (hv : Valid specInit ops) :
    ∃ l : List (Int × F), call (run ops) = l.map (·.2) ∧
      l.Pairwise (fun a b => a.1 < b.1) ∧
      ∀ id f, (id, f) ∈ l ↔ (specRun ops).reg id = some f := by
  have h := (inv_run ops hv).repr
  exact ⟨(run ops).funcs, rfl, h.1, h.2⟩

/-- C10: `insert` after any valid history returns an identifier never handed out before and not
in use. -/
theorem insert_fresh {F} (ops : List (Op F)) (hv : Valid specInit ops) (f : F) :
    let id := (insert f (run ops)).1
    id = (specRun ops).issued ∧ (specRun ops).reg id = none := by
  have h := inv_run ops hv
  refine ⟨h.num, ?_⟩
  show (specRun ops).reg (run ops).n = none
  rw [h.num]; exact h.fresh _ (Int.le_refl _)

/-- C10: an inserted callable is run by the next call. -/
theorem insert_called {F} (ops : List (Op F)) (hv : Valid specInit ops) (f : F) :
    f ∈ call (insert f (run ops)).2 := by
  have h := inv_step _ _ (Op.insert f) (inv_run ops hv) trivial
  have : ((specRun ops).issued, f) ∈ (step (run ops) (.insert f)).funcs := by
    rw [h.repr.2]; simp [specStep, put]
  exact List.mem_map.mpr ⟨_, this, rfl⟩

/-- C10: `operator bool` tells whether a call runs anything. -/
theorem nonEmpty_spec {F} (c : CB F) : nonEmpty c = true ↔ call c ≠ [] := by
  simp [nonEmpty, call]

/-- C10, violated without the restriction on `assign`: registering under identifier 0 first makes
the following `insert` return the identifier 0 that is in use, and the inserted callable is never
run. -/
theorem insert_after_assign_violated {F} (f g : F) (hfg : f ≠ g) :
    let c := assign 0 g init
    (insert f c).1 = 0 ∧ (0, g) ∈ c.funcs ∧ f ∉ call (insert f c).2 := by
  simp [assign, init, insert, insertOrAssign, emplace, call, hfg]

example : Valid specInit [Op.insert 'a', .insert 'b', .assign 0 'c', .erase 1, .insert 'd'] :=
  ⟨trivial, trivial, by decide, trivial, trivial, trivial⟩
example : call (run [Op.insert 'a', .insert 'b', .assign 0 'c', .erase 1, .insert 'd'])
    = ['c', 'd'] := by decide

end Verif.Callbacks
