import Verif.Model.BhtLock

/-!
`bht`, keys that are not one machine word: the lock of the slot makes `atomicLoad` and
`atomicSwitchIfEqual` atomic (C36).
-/
namespace Verif.BhtLock

open Verif.Bht (upd)

variable {V : Type} [DecidableEq V] {dim : Nat} {sent junk : Nat → V} {op : Nat → Op V}

/-! ## Specification: the operations as one indivisible access to the key -/

/-- The key made of the first `dim` components. -/
def keyOf (dim : Nat) (f : Nat → V) : List V := (List.range dim).map f

/-- A load leaves the key alone and returns it; a switch replaces the sentinel and nothing else.  The
new content of the slot, what the call sees or stores, and whether it switched. -/
def atomicOp (dim : Nat) (sent : Nat → V) : Op V → List V → List V × List V × Bool
  | .load, v => (v, v, false)
  | .switch k, v => if v = keyOf dim sent then (keyOf dim k, keyOf dim k, true) else (v, v, false)

/-- The indivisible operations of the threads of a list, one after the other: the final content. -/
def replay (dim : Nat) (sent : Nat → V) (op : Nat → Op V) (v : List V) : List Nat → List V
  | [] => v
  | t :: rest => replay dim sent op (atomicOp dim sent (op t) v).1 rest

/-- The results of the calls are those of the indivisible operations. -/
def Agrees (dim : Nat) (sent : Nat → V) (op : Nat → Op V) (pc : Nat → Pc V) (v : List V) : List Nat → Prop
  | [] => True
  | t :: rest =>
    (∃ r w, pc t = .done r w ∧ (keyOf dim r, w) = (atomicOp dim sent (op t) v).2) ∧
    Agrees dim sent op pc (atomicOp dim sent (op t) v).1 rest

/-! ## Helpers -/

private theorem upd_same {α : Type} (f : Nat → α) (i : Nat) (x : α) : upd f i x i = x := by simp [upd]

private theorem upd_ne {α : Type} (f : Nat → α) {i j : Nat} (x : α) (h : j ≠ i) : upd f i x j = f j := by
  simp [upd, h]

omit [DecidableEq V] in
private theorem keyOf_eq {f g : Nat → V} : keyOf dim f = keyOf dim g ↔ ∀ i < dim, f i = g i := by
  unfold keyOf
  constructor
  · intro h i hi
    exact (List.map_inj_left.1 h) i (List.mem_range.2 hi)
  · intro h
    exact List.map_inj_left.2 fun i hi => h i (List.mem_range.1 hi)

private theorem eqUpTo_iff {f g : Nat → V} : ∀ n, eqUpTo f g n = true ↔ ∀ i < n, f i = g i := by
  intro n
  induction n with
  | zero => simp [eqUpTo]
  | succ n ih =>
    simp only [eqUpTo, Bool.and_eq_true, ih, beq_iff_eq]
    constructor
    · rintro ⟨h1, h2⟩ i hi
      by_cases e : i = n
      · rw [e, h2]
      · exact h1 i (by omega)
    · intro h
      exact ⟨fun i hi => h i (by omega), h n (by omega)⟩

/-- What the holder of the lock has done so far, `v` being the content when it took the lock. -/
private def Holding (dim : Nat) (sent : Nat → V) (o : Op V) (mem : Nat → V) (v : List V) : Pc V → Prop
  | .read d buf => d ≤ dim ∧ keyOf dim mem = v ∧ ∀ i < d, buf i = mem i
  | .write d => d ≤ dim ∧ v = keyOf dim sent ∧ ∃ k, o = .switch k ∧ ∀ i < d, mem i = k i
  | .release r w => (keyOf dim mem, keyOf dim r, w) = atomicOp dim sent o v
  | _ => False

private def Outside : Pc V → Prop
  | .acquire => True
  | .done _ _ => True
  | _ => False

private structure Inv (dim : Nat) (sent : Nat → V) (op : Nat → Op V) (s : St V) (v : List V) : Prop where
  free : s.locked = false → keyOf dim s.mem = v ∧ ∀ t, Outside (s.pc t)
  held : s.locked = true → ∃ t, Holding dim sent (op t) s.mem v (s.pc t) ∧ ∀ u, u ≠ t → Outside (s.pc u)

private theorem Inv.step {s : St V} {v : List V} (h : Inv dim sent op s v) (t : Nat) :
    ((step dim sent junk op s t).2 = false ∧ Inv dim sent op (step dim sent junk op s t).1 v) ∨
    ((step dim sent junk op s t).2 = true ∧
      Inv dim sent op (step dim sent junk op s t).1 (atomicOp dim sent (op t) v).1 ∧
      (∀ r w, s.pc t ≠ .done r w) ∧
      ∃ r w, (step dim sent junk op s t).1.pc t = .done r w ∧ (keyOf dim r, w) = (atomicOp dim sent (op t) v).2) := by
  have key : ∀ {p : Pc V} {mem : Nat → V}, s.locked = true → ¬ Outside (s.pc t) →
      (Holding dim sent (op t) s.mem v (s.pc t) → Holding dim sent (op t) mem v p) →
      Inv dim sent op { s with mem := mem, pc := upd s.pc t p } v := by
    intro p mem hl ho hp
    obtain ⟨u, hu, hou⟩ := h.held hl
    have : u = t := by
      apply Classical.byContradiction
      intro e
      exact ho (hou t fun e' => e e'.symm)
    subst this
    refine ⟨fun e => absurd (e.symm.trans hl) (by simp), fun _ => ⟨u, ?_, ?_⟩⟩
    · simp only [upd_same]; exact hp hu
    · intro w hw
      simp only [upd_ne _ _ hw]; exact hou w hw
  have hlock : ¬ Outside (s.pc t) → s.locked = true := by
    intro ho
    cases hl : s.locked with
    | true => rfl
    | false => exact absurd ((h.free hl).2 t) ho
  unfold BhtLock.step
  cases hpc : s.pc t with
  | acquire =>
    refine Or.inl ?_
    simp only
    split
    · exact ⟨rfl, h⟩
    · next hl =>
      have hl : s.locked = false := by simpa using hl
      refine ⟨rfl, fun e => by simp at e, fun _ => ⟨t, ?_, ?_⟩⟩
      · simp only [upd_same]
        exact ⟨Nat.zero_le _, (h.free hl).1, fun i hi => by omega⟩
      · intro u hu
        simp only [upd_ne _ _ hu]
        exact (h.free hl).2 u
  | read d buf =>
    have ho : ¬ Outside (s.pc t) := by rw [hpc]; exact fun x => x
    have hl := hlock ho
    refine Or.inl ?_
    simp only
    split
    · next hd =>
      subst hd
      cases hop : op t with
      | load =>
        refine ⟨rfl, key hl ho ?_⟩
        rw [hpc, hop]
        rintro ⟨_, h2, h3⟩
        show _ = (v, v, false)
        rw [keyOf_eq.2 h3, h2]
      | switch k =>
        simp only
        split
        · next he =>
          refine ⟨rfl, key hl ho ?_⟩
          rw [hpc, hop]
          rintro ⟨_, h2, h3⟩
          refine ⟨Nat.zero_le _, ?_, k, rfl, fun i hi => by omega⟩
          rw [← h2, keyOf_eq]
          intro i hi
          rw [← h3 i hi]
          exact (eqUpTo_iff _).1 he i hi
        · next he =>
          refine ⟨rfl, key hl ho ?_⟩
          rw [hpc, hop]
          rintro ⟨_, h2, h3⟩
          have hne : v ≠ keyOf d sent := by
            intro e
            apply he
            rw [← h2, keyOf_eq] at e
            exact (eqUpTo_iff _).2 fun i hi => (h3 i hi).trans (e i hi)
          show _ = (if v = keyOf d sent then _ else (v, v, false))
          rw [if_neg hne, keyOf_eq.2 h3, h2]
    · next hd =>
      refine ⟨rfl, key hl ho ?_⟩
      rw [hpc]
      rintro ⟨h1, h2, h3⟩
      refine ⟨by omega, h2, ?_⟩
      intro i hi
      by_cases e : i = d
      · rw [e, upd_same]
      · rw [upd_ne _ _ e]
        exact h3 i (by omega)
  | write d =>
    have ho : ¬ Outside (s.pc t) := by rw [hpc]; exact fun x => x
    have hl := hlock ho
    refine Or.inl ?_
    cases hop : op t with
    | load => exact ⟨rfl, h⟩
    | switch k =>
      simp only
      split
      · next hd =>
        subst hd
        refine ⟨rfl, key hl ho ?_⟩
        rw [hpc, hop]
        rintro ⟨_, h2, k', h3, h4⟩
        cases h3
        show _ = (if v = keyOf d sent then (keyOf d k, keyOf d k, true) else _)
        rw [if_pos h2, keyOf_eq.2 h4]
      · next hd =>
        refine ⟨rfl, key hl ho ?_⟩
        rw [hpc, hop]
        rintro ⟨h1, h2, k', h3, h4⟩
        cases h3
        refine ⟨by omega, h2, k, rfl, ?_⟩
        intro i hi
        by_cases e : i = d
        · rw [e, upd_same]
        · rw [upd_ne _ _ e]
          exact h4 i (by omega)
  | release r w =>
    have ho : ¬ Outside (s.pc t) := by rw [hpc]; exact fun x => x
    have hl := hlock ho
    obtain ⟨u, hu, hou⟩ := h.held hl
    have : u = t := by
      apply Classical.byContradiction
      intro e
      exact ho (hou t fun e' => e e'.symm)
    subst this
    rw [hpc] at hu
    have hu : (keyOf dim s.mem, keyOf dim r, w) = atomicOp dim sent (op u) v := hu
    refine Or.inr ⟨rfl, ⟨fun _ => ⟨?_, ?_⟩, fun e => by simp at e⟩, by simp, r, w, ?_, ?_⟩
    · rw [← hu]
    · intro x
      by_cases e : x = u
      · subst e; simp only [upd_same]; trivial
      · simp only [upd_ne _ _ e]; exact hou x e
    · simp only [upd_same]
    · rw [← hu]
  | done r w => exact Or.inl ⟨rfl, h⟩

private theorem step_done {s : St V} {t u : Nat} {r : Nat → V} {w : Bool} (h : s.pc u = .done r w) :
    (step dim sent junk op s t).1.pc u = .done r w := by
  have key : ∀ {p : Pc V}, t ≠ u → upd s.pc t p u = .done r w := by
    intro p e
    rw [upd_ne _ _ (Ne.symm e), h]
  unfold step
  by_cases e : t = u
  · subst e; rw [h]; exact h
  · cases s.pc t <;> simp only <;> (repeat' split) <;> first | exact h | exact key e

private theorem run_done {sched : List Nat} : ∀ {s : St V} {u : Nat} {r : Nat → V} {w : Bool}, s.pc u = .done r w →
    (run dim sent junk op s sched).1.pc u = .done r w := by
  induction sched with
  | nil => intro s u r w h; exact h
  | cons t rest ih => intro s u r w h; exact ih (step_done h)

private theorem run_ok {sched : List Nat} : ∀ {s : St V} {v : List V}, Inv dim sent op s v →
    Agrees dim sent op (run dim sent junk op s sched).1.pc v (run dim sent junk op s sched).2 ∧
    Inv dim sent op (run dim sent junk op s sched).1 (replay dim sent op v (run dim sent junk op s sched).2) ∧
    (run dim sent junk op s sched).2.Nodup ∧
    (∀ t ∈ (run dim sent junk op s sched).2, ∀ r w, s.pc t ≠ .done r w) := by
  induction sched with
  | nil => intro s v h; exact ⟨trivial, h, List.nodup_nil, fun t ht => absurd ht (List.not_mem_nil)⟩
  | cons t rest ih =>
    intro s v h
    have mono : ∀ u, (∀ r w, (step dim sent junk op s t).1.pc u ≠ .done r w) → ∀ r w, s.pc u ≠ .done r w :=
      fun u hu r w e => hu r w (step_done e)
    rcases h.step (junk := junk) t with ⟨h1, h2⟩ | ⟨h1, h2, h3, r, w, h4, h5⟩
    · have := ih h2
      unfold run
      simp only [h1, Bool.false_eq_true, if_false]
      exact ⟨this.1, this.2.1, this.2.2.1, fun u hu => mono u (this.2.2.2 u hu)⟩
    · have := ih h2
      unfold run
      simp only [h1, if_true]
      refine ⟨⟨⟨r, w, run_done h4, h5⟩, this.1⟩, this.2.1, ?_, ?_⟩
      · refine List.nodup_cons.2 ⟨fun hm => ?_, this.2.2.1⟩
        exact this.2.2.2 t hm r w h4
      · intro u hu
        rcases List.mem_cons.1 hu with rfl | hu
        · exact h3
        · exact mono u (this.2.2.2 u hu)

private theorem inv_init : Inv dim sent op (init sent) (keyOf dim sent) :=
  ⟨fun _ => ⟨rfl, fun _ => trivial⟩, fun e => by simp [init] at e⟩

private theorem step_effect {s : St V} {t u : Nat} {r : Nat → V} {w : Bool}
    (h : (step dim sent junk op s t).1.pc u = .done r w) (hn : ∀ r w, s.pc u ≠ .done r w) :
    t = u ∧ (step dim sent junk op s t).2 = true := by
  unfold step at h ⊢
  by_cases e : t = u
  · subst e
    refine ⟨rfl, ?_⟩
    cases hpc : s.pc t <;> rw [hpc] at h <;> simp only at h ⊢ <;> (repeat' split at h) <;> simp_all [upd_same]
  · exfalso
    have e' : u ≠ t := fun x => e x.symm
    cases hpc : s.pc t <;> rw [hpc] at h <;> simp only at h <;> (repeat' split at h) <;>
      simp_all [upd_ne _ _ e']

private theorem run_mem {sched : List Nat} : ∀ {s : St V} {u : Nat} {r : Nat → V} {w : Bool},
    (run dim sent junk op s sched).1.pc u = .done r w → (∀ r w, s.pc u ≠ .done r w) →
    u ∈ (run dim sent junk op s sched).2 := by
  induction sched with
  | nil => intro s u r w h hn; exact absurd h (hn r w)
  | cons t rest ih =>
    intro s u r w h hn
    unfold run at h ⊢
    simp only at h ⊢
    by_cases hd : ∃ r w, (step dim sent junk op s t).1.pc u = .done r w
    · obtain ⟨r', w', hd⟩ := hd
      obtain ⟨rfl, h2⟩ := step_effect hd hn
      rw [if_pos h2]
      exact List.mem_cons_self
    · have hd' : ∀ r w, (step dim sent junk op s t).1.pc u ≠ .done r w := fun r w e => hd ⟨r, w, e⟩
      have := ih h hd'
      split
      · exact List.mem_cons_of_mem _ this
      · exact this

/-! ## The theorems -/

/-- Whatever the interleaving, the completed calls have the results of the indivisible operations done
in the order in which the calls gave the lock back, each once; while the lock is free the slot holds
what those operations leave. -/
theorem bht_lock_linearizable (sched : List Nat) :
    let s := (run dim sent junk op (init sent) sched).1
    let order := (run dim sent junk op (init sent) sched).2
    order.Nodup ∧
    (∀ t, t ∈ order ↔ ∃ r w, s.pc t = .done r w) ∧
    Agrees dim sent op s.pc (keyOf dim sent) order ∧
    (s.locked = false → keyOf dim s.mem = replay dim sent op (keyOf dim sent) order) := by
  obtain ⟨h1, h2, h3, h4⟩ := run_ok (junk := junk) (sched := sched) (inv_init (dim := dim) (sent := sent) (op := op))
  refine ⟨h3, ?_, h1, fun hl => (h2.free hl).1⟩
  intro t
  constructor
  · intro ht
    have aux : ∀ (l : List Nat) (pc : Nat → Pc V) (v : List V), Agrees dim sent op pc v l → ∀ t ∈ l,
        ∃ r w, pc t = .done r w := by
      intro l pc
      induction l with
      | nil => intro v _ t ht; exact absurd ht List.not_mem_nil
      | cons a l ih =>
        intro v ha t ht
        rcases List.mem_cons.1 ht with rfl | ht
        · obtain ⟨r, w, e, _⟩ := ha.1
          exact ⟨r, w, e⟩
        · exact ih _ ha.2 t ht
    exact aux _ _ _ h1 t ht
  · rintro ⟨r, w, e⟩
    exact run_mem e (by simp [init])

private theorem replay_switched (v : List V) (hv : v ≠ keyOf dim sent) : ∀ l, replay dim sent op v l = v := by
  intro l
  induction l with
  | nil => rfl
  | cons t l ih =>
    have : (atomicOp dim sent (op t) v).1 = v := by
      cases op t with
      | load => rfl
      | switch k => simp [atomicOp, hv]
    unfold replay
    rw [this, ih]

private theorem agrees_switched {pc : Nat → Pc V} (v : List V) (hv : v ≠ keyOf dim sent) : ∀ l, Agrees dim sent op pc v l →
    ∀ t ∈ l, ∃ r, pc t = .done r false ∧ keyOf dim r = v := by
  intro l
  induction l with
  | nil => intro _ t ht; exact absurd ht List.not_mem_nil
  | cons a l ih =>
    intro ha t ht
    have e : atomicOp dim sent (op a) v = (v, v, false) := by
      cases op a with
      | load => rfl
      | switch k => simp [atomicOp, hv]
    unfold Agrees at ha
    rw [e] at ha
    rcases List.mem_cons.1 ht with rfl | ht
    · obtain ⟨r, w, e1, e2⟩ := ha.1
      cases e2
      exact ⟨r, e1, rfl⟩
    · exact ih ha.2 t ht

/-- Of the completed calls at most one switches; every load, and every failed switch, sees the whole
sentinel or the whole key of that call: keys are never seen half written. -/
theorem bht_lock_no_tearing (sched : List Nat) (hk : ∀ t k, op t = .switch k → keyOf dim k ≠ keyOf dim sent)
    (t : Nat) (r : Nat → V) (w : Bool) (hd : (run dim sent junk op (init sent) sched).1.pc t = .done r w) :
    (w = true → ∃ k, op t = .switch k ∧ keyOf dim k = keyOf dim r) ∧
    (∀ t' r', (run dim sent junk op (init sent) sched).1.pc t' = .done r' true →
      w = true → t' = t) ∧
    (keyOf dim r = keyOf dim sent ∨
      ∃ t' r', (run dim sent junk op (init sent) sched).1.pc t' = .done r' true ∧ keyOf dim r' = keyOf dim r) := by
  obtain ⟨_, h2, h3, _⟩ := bht_lock_linearizable (dim := dim) (sent := sent) (junk := junk) (op := op) sched
  generalize (run dim sent junk op (init sent) sched).1.pc = pc at *
  generalize (run dim sent junk op (init sent) sched).2 = l at *
  have aux : ∀ l, Agrees dim sent op pc (keyOf dim sent) l →
      (∀ t ∈ l, ∃ r, pc t = .done r false ∧ keyOf dim r = keyOf dim sent) ∨
      (∃ u k ru, u ∈ l ∧ op u = .switch k ∧ pc u = .done ru true ∧ keyOf dim ru = keyOf dim k ∧
        ∀ t ∈ l, t ≠ u → ∃ r, pc t = .done r false ∧ (keyOf dim r = keyOf dim sent ∨ keyOf dim r = keyOf dim k)) := by
    intro l
    induction l with
    | nil => intro _; exact Or.inl fun t ht => absurd ht List.not_mem_nil
    | cons a l ih =>
      intro ha
      unfold Agrees at ha
      cases hop : op a with
      | load =>
        rw [hop] at ha
        obtain ⟨⟨r, w, e1, e2⟩, ha⟩ := ha
        have e3 : keyOf dim r = keyOf dim sent := congrArg Prod.fst e2
        have e4 : w = false := congrArg Prod.snd e2
        subst e4
        rcases ih ha with h | ⟨u, k, ru, x1, x2, x3, x4, x5⟩
        · refine Or.inl fun t ht => ?_
          rcases List.mem_cons.1 ht with rfl | ht
          · exact ⟨r, e1, e3⟩
          · exact h t ht
        · refine Or.inr ⟨u, k, ru, List.mem_cons_of_mem _ x1, x2, x3, x4, fun t ht hne => ?_⟩
          rcases List.mem_cons.1 ht with rfl | ht
          · exact ⟨r, e1, Or.inl e3⟩
          · exact x5 t ht hne
      | switch k =>
        rw [hop] at ha
        obtain ⟨⟨r, w, e1, e2⟩, ha⟩ := ha
        simp only [atomicOp, if_true] at e2 ha
        have e3 : keyOf dim r = keyOf dim k := congrArg Prod.fst e2
        have e4 : w = true := congrArg Prod.snd e2
        subst e4
        refine Or.inr ⟨a, k, r, List.mem_cons_self, hop, e1, e3, fun t ht hne => ?_⟩
        rcases List.mem_cons.1 ht with rfl | ht
        · exact absurd rfl hne
        · obtain ⟨r', y1, y2⟩ := agrees_switched _ (hk a k hop) l ha t ht
          exact ⟨r', y1, Or.inr y2⟩
  have ht := (h2 t).2 ⟨r, w, hd⟩
  rcases aux l h3 with h | ⟨u, k, ru, x1, x2, x3, x4, x5⟩
  · obtain ⟨r0, e1, e2⟩ := h t ht
    rw [hd] at e1
    cases e1
    exact ⟨by simp, by simp, Or.inl e2⟩
  · have only : ∀ t' r', pc t' = .done r' true → t' = u := by
      intro t' r' hd'
      apply Classical.byContradiction
      intro hne
      obtain ⟨r0, e1, _⟩ := x5 t' ((h2 t').2 ⟨r', true, hd'⟩) hne
      rw [hd'] at e1
      cases e1
    refine ⟨?_, ?_, ?_⟩
    · rintro rfl
      have := only t r hd
      subst this
      rw [hd] at x3
      cases x3
      exact ⟨k, x2, x4.symm⟩
    · rintro t' r' hd' rfl
      rw [only t' r' hd', only t r hd]
    · by_cases e : t = u
      · subst e
        rw [hd] at x3
        cases x3
        exact Or.inr ⟨t, r, hd, rfl⟩
      · obtain ⟨r0, e1, e2⟩ := x5 t ht e
        rw [hd] at e1
        cases e1
        rcases e2 with e2 | e2
        · exact Or.inl e2
        · exact Or.inr ⟨u, ru, x3, x4.trans e2.symm⟩

/-- Two threads switch and one loads, interleaved while the first holds the lock. -/
example :
    let op : Nat → Op Nat := fun t => if t = 0 then .switch fun d => d else if t = 1 then .switch fun d => 10 + d else .load
    let r := run 3 (fun _ => 63) (fun _ => 0) op (init fun _ => 63)
      ([1, 0, 1, 2, 1, 1, 1, 0, 1, 1, 2, 1, 1, 1] ++ List.replicate 9 2 ++ List.replicate 9 0)
    r.2 = [1, 2, 0] ∧ keyOf 3 r.1.mem = [10, 11, 12] := by decide

end Verif.BhtLock
