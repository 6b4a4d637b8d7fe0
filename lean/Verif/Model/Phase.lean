/-!
Execution model of an OpenMP parallel region (`#pragma omp parallel` with `#pragma omp barrier`).

The region is a list of *phases* separated by barriers.  In a phase every thread `t < T` executes its
own list of atomic actions on the shared memory; the actions of different threads are interleaved
arbitrarily.  All threads finish a phase before any thread starts the next one (which is what a
barrier provides).  Memory accesses are sequentially consistent.
-/
namespace Verif.Phase

/-- Point update. -/
def upd {L V : Type} [DecidableEq L] (f : L → V) (i : L) (v : V) : L → V :=
  fun j => if j = i then v else f j

/-- `Interleave T progs sched`: `sched` is a complete interleaving of the programs of threads
`0 .. T-1`. -/
inductive Interleave {A : Type} (T : Nat) : (Nat → List A) → List A → Prop
  | done {progs : Nat → List A} : (∀ t, t < T → progs t = []) → Interleave T progs []
  | step {progs : Nat → List A} {sched : List A} (t : Nat) (a : A) (p : List A) (ht : t < T)
      (hp : progs t = a :: p) :
      Interleave T (upd progs t p) sched → Interleave T progs (a :: sched)

/-- Executing a list of actions. -/
def exec {S : Type} (acts : List (S → S)) (s : S) : S := acts.foldl (fun s a => a s) s

/-- `Runs T phases s s'`: some interleaved execution of the phases by `T` threads leads from `s` to
`s'`. -/
inductive Runs {S : Type} (T : Nat) : List (Nat → List (S → S)) → S → S → Prop
  | nil (s : S) : Runs T [] s s
  | cons {progs : Nat → List (S → S)} {phases sched s s'} :
      Interleave T progs sched → Runs T phases (exec sched s) s' → Runs T (progs :: phases) s s'

end Verif.Phase
