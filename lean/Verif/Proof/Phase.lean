import Verif.Model.Phase
namespace Verif.Phase

theorem upd_same {L V : Type} [DecidableEq L] (f : L → V) (i : L) (v : V) : upd f i v i = v := by
  simp [upd]

theorem upd_ne {L V : Type} [DecidableEq L] (f : L → V) (i j : L) (v : V) (h : j ≠ i) :
    upd f i v j = f j := by
  simp [upd, h]

theorem exec_append {S : Type} (a b : List (S → S)) (s : S) : exec (a ++ b) s = exec b (exec a s) := by
  simp [exec]

theorem exec_cons {S : Type} (a : S → S) (b : List (S → S)) (s : S) :
    exec (a :: b) s = exec b (a s) := rfl

theorem exec_nil {S : Type} (s : S) : exec ([] : List (S → S)) s = s := rfl

/-- An action writes only inside `W`, and its effect on `R` depends only on `R`. -/
structure Foot {L V : Type} (R W : L → Prop) (a : (L → V) → (L → V)) : Prop where
  frame : ∀ s l, ¬ W l → a s l = s l
  dep : ∀ s s', (∀ l, R l → s l = s' l) → ∀ l, R l → a s l = a s' l

theorem exec_dep {L V : Type} {R W : L → Prop} (p : List ((L → V) → (L → V)))
    (h : ∀ a ∈ p, Foot R W a) (s s' : L → V) (hs : ∀ l, R l → s l = s' l) :
    ∀ l, R l → exec p s l = exec p s' l := by
  induction p generalizing s s' with
  | nil => exact hs
  | cons a p ih =>
    rw [exec_cons, exec_cons]
    exact ih (fun b hb => h b (by simp [hb])) _ _ ((h a (by simp)).dep s s' hs)

/-- In a phase whose threads do not write what other threads access, every thread's part of the
memory ends up as if the thread had run alone, under every interleaving. -/
theorem exec_thread {L V : Type} (T : Nat) (R W : Nat → L → Prop)
    (hdis : ∀ t u l, t < T → u < T → t ≠ u → W u l → ¬ R t l)
    (progs : Nat → List ((L → V) → (L → V))) (hf : ∀ t, t < T → ∀ a ∈ progs t, Foot (R t) (W t) a)
    (sched : List ((L → V) → (L → V))) (h : Interleave T progs sched) (s : L → V) :
    (∀ t, t < T → ∀ l, R t l → exec sched s l = exec (progs t) s l) ∧
      (∀ l, (∀ t, t < T → ¬ W t l) → exec sched s l = s l) := by
  induction h generalizing s with
  | done h0 => exact ⟨fun t ht l _ => by rw [h0 t ht], fun l _ => rfl⟩
  | @step progs sched u a p hu hp h ih =>
    have hfa : Foot (R u) (W u) a := hf u hu a (by rw [hp]; simp)
    have hf' : ∀ t, t < T → ∀ b ∈ upd progs u p t, Foot (R t) (W t) b := by
      intro t ht b hb
      by_cases e : t = u
      · subst e
        rw [upd_same] at hb
        exact hf t ht b (by rw [hp]; simp [hb])
      · rw [upd_ne _ _ _ _ e] at hb
        exact hf t ht b hb
    obtain ⟨i1, i2⟩ := ih hf' (a s)
    rw [exec_cons]
    constructor
    · intro t ht l hl
      rw [i1 t ht l hl]
      by_cases e : t = u
      · subst e; rw [upd_same, hp, exec_cons]
      · rw [upd_ne _ _ _ _ e]
        refine exec_dep (progs t) (hf t ht) _ _ ?_ l hl
        intro l' hl'
        exact hfa.frame s l' (fun hw => hdis t u l' ht hu e hw hl')
    · intro l hl
      rw [i2 l hl]
      exact hfa.frame s l (hl u hu)

/-- Along the run of `p` alone from `s`, every action writes only inside `W` and its effect on `R`
depends only on `R`. -/
def FootFrom {L V : Type} (R W : L → Prop) : List ((L → V) → (L → V)) → (L → V) → Prop
  | [], _ => True
  | a :: p, s =>
    (∀ s', (∀ l, R l → s' l = s l) →
      (∀ l, ¬ W l → a s' l = s' l) ∧ (∀ l, R l → a s' l = a s l)) ∧ FootFrom R W p (a s)

theorem footFrom_congr {L V : Type} {R W : L → Prop} (p : List ((L → V) → (L → V)))
    (s s' : L → V) (h : FootFrom R W p s) (hs : ∀ l, R l → s' l = s l) : FootFrom R W p s' := by
  induction p generalizing s s' with
  | nil => trivial
  | cons a p ih =>
    refine ⟨fun s'' h'' => ?_, ih _ _ h.2 (h.1 s' hs).2⟩
    have h3 : ∀ l, R l → s'' l = s l := fun l hl => (h'' l hl).trans (hs l hl)
    exact ⟨(h.1 s'' h3).1, fun l hl => ((h.1 s'' h3).2 l hl).trans ((h.1 s' hs).2 l hl).symm⟩

theorem footFrom_append {L V : Type} {R W : L → Prop} (p q : List ((L → V) → (L → V)))
    (s : L → V) (h1 : FootFrom R W p s) (h2 : FootFrom R W q (exec p s)) :
    FootFrom R W (p ++ q) s := by
  induction p generalizing s with
  | nil => exact h2
  | cons a p ih => exact ⟨h1.1, ih _ h1.2 h2⟩

theorem exec_dep_from {L V : Type} {R W : L → Prop} (p : List ((L → V) → (L → V)))
    (s s' : L → V) (h : FootFrom R W p s) (hs : ∀ l, R l → s' l = s l) :
    ∀ l, R l → exec p s' l = exec p s l := by
  induction p generalizing s s' with
  | nil => exact hs
  | cons a p ih =>
    rw [exec_cons, exec_cons]
    exact ih _ _ h.2 (h.1 s' hs).2

/-- `exec_thread` for actions whose footprint depends on the state. -/
theorem exec_thread_from {L V : Type} (T : Nat) (R W : Nat → L → Prop)
    (hdis : ∀ t u l, t < T → u < T → t ≠ u → W u l → ¬ R t l)
    (progs : Nat → List ((L → V) → (L → V))) (s : L → V)
    (hf : ∀ t, t < T → FootFrom (R t) (W t) (progs t) s)
    (sched : List ((L → V) → (L → V))) (h : Interleave T progs sched) :
    (∀ t, t < T → ∀ l, R t l → exec sched s l = exec (progs t) s l) ∧
      (∀ l, (∀ t, t < T → ¬ W t l) → exec sched s l = s l) := by
  induction h generalizing s with
  | done h0 => exact ⟨fun t ht l _ => by rw [h0 t ht], fun l _ => rfl⟩
  | @step progs sched u a p hu hp h ih =>
    have hfu := hf u hu
    rw [hp] at hfu
    have hfr := (hfu.1 s (fun _ _ => rfl)).1
    have hag : ∀ t, t < T → t ≠ u → ∀ l, R t l → a s l = s l := fun t ht e l hl =>
      hfr l (fun hw => hdis t u l ht hu e hw hl)
    have hf' : ∀ t, t < T → FootFrom (R t) (W t) (upd progs u p t) (a s) := by
      intro t ht
      by_cases e : t = u
      · subst e; rw [upd_same]; exact hfu.2
      · rw [upd_ne _ _ _ _ e]; exact footFrom_congr _ _ _ (hf t ht) (hag t ht e)
    obtain ⟨i1, i2⟩ := ih (a s) hf'
    rw [exec_cons]
    constructor
    · intro t ht l hl
      rw [i1 t ht l hl]
      by_cases e : t = u
      · subst e; rw [upd_same, hp, exec_cons]
      · rw [upd_ne _ _ _ _ e]
        exact exec_dep_from (progs t) s (a s) (hf t ht) (hag t ht e) l hl
    · intro l hl
      rw [i2 l hl]
      exact hfr l (hl u hu)

/-- Every phase has an execution. -/
theorem interleave_exists {A : Type} (T : Nat) (progs : Nat → List A) :
    ∃ sched, Interleave T progs sched := by
  have key : ∀ k, k ≤ T → ∀ progs : Nat → List A, (∀ t, t < T → k ≤ t → progs t = []) →
      ∃ sched, Interleave T progs sched := by
    intro k
    induction k with
    | zero => intro _ progs h; exact ⟨[], .done fun t ht => h t ht (by omega)⟩
    | succ k ih =>
      intro hk progs h
      generalize hn : progs k = p
      induction p generalizing progs with
      | nil =>
        apply ih (by omega) progs
        intro t ht hkt
        by_cases e : t = k
        · rw [e, hn]
        · exact h t ht (by omega)
      | cons a p ihp =>
        obtain ⟨sched, hs⟩ := ihp (upd progs k p)
          (by intro t ht hkt; rw [upd_ne _ _ _ _ (by omega)]; exact h t ht hkt) (upd_same _ _ _)
        exact ⟨a :: sched, .step k a p (by omega) hn hs⟩
  exact key T (Nat.le_refl _) progs (fun t ht h => by omega)

theorem runs_exists {S : Type} (T : Nat) (phases : List (Nat → List (S → S))) (s : S) :
    ∃ s', Runs T phases s s' := by
  induction phases generalizing s with
  | nil => exact ⟨s, .nil s⟩
  | cons p ps ih =>
    obtain ⟨sched, hs⟩ := interleave_exists T p
    obtain ⟨s', h⟩ := ih (exec sched s)
    exact ⟨s', .cons hs h⟩

/-- Running the threads of a phase one after the other is one of its executions. -/
theorem interleave_seq {A : Type} (T : Nat) (progs : Nat → List A) :
    Interleave T progs ((List.range' 0 T).flatMap progs) := by
  have key : ∀ d k, k + d = T → ∀ progs : Nat → List A, (∀ t, t < k → progs t = []) →
      Interleave T progs ((List.range' k d).flatMap progs) := by
    intro d
    induction d with
    | zero => intro k hk progs h; exact .done fun t ht => h t (by omega)
    | succ d ih =>
      intro k hk progs h
      rw [List.range'_succ, List.flatMap_cons]
      generalize hn : progs k = p
      induction p generalizing progs with
      | nil =>
        apply ih (k + 1) (by omega)
        intro t ht
        by_cases e : t = k
        · rw [e, hn]
        · exact h t (by omega)
      | cons a p ihp =>
        refine .step k a p (by omega) hn ?_
        have := ihp (upd progs k p) (by intro t ht; rw [upd_ne _ _ _ _ (by omega)]; exact h t ht)
          (upd_same _ _ _)
        have e : (List.range' (k + 1) d).flatMap (upd progs k p) =
            (List.range' (k + 1) d).flatMap progs := by
          rw [List.flatMap_def, List.flatMap_def]
          congr 1
          apply List.map_congr_left
          intro t ht
          rw [List.mem_range'_1] at ht
          exact upd_ne _ _ _ _ (by omega)
        rw [e] at this
        exact this
  exact key T 0 (by omega) progs (fun t ht => by omega)

/-- Run every phase thread by thread. -/
def seqRun {S : Type} (T : Nat) : List (Nat → List (S → S)) → S → S
  | [], s => s
  | p :: ps, s => seqRun T ps (exec ((List.range' 0 T).flatMap p) s)

theorem runs_seqRun {S : Type} (T : Nat) (phases : List (Nat → List (S → S))) (s : S) :
    Runs T phases s (seqRun T phases s) := by
  induction phases generalizing s with
  | nil => exact .nil s
  | cons p ps ih => exact .cons (interleave_seq T p) (ih _)

theorem runs_append {S : Type} {T : Nat} {p q : List (Nat → List (S → S))} {s s' : S}
    (h : Runs T (p ++ q) s s') : ∃ m, Runs T p s m ∧ Runs T q m s' := by
  induction p generalizing s with
  | nil => exact ⟨s, .nil s, h⟩
  | cons a p ih =>
    cases h with
    | cons hi hr =>
      obtain ⟨m, h1, h2⟩ := ih hr
      exact ⟨m, .cons hi h1, h2⟩

end Verif.Phase
