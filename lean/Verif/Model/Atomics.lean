/-!
Model of the host side read-modify-write helpers of `include/zensim/execution/Atomics.hpp` with a
parallel policy: `atomic_add` (lines 61-110), `atomic_exch` (173-201), `atomic_cas` (235-289),
`atomic_max` (326-341), `atomic_min` (373-388), `atomic_or/and/xor` (409 ff).

Any number of threads interleave at the accesses of `*dest`; each thread works through a list of calls.
Values are bit patterns `α`; `lt` and `ne` are the C++ operators `<` and `!=` on `T`.  Accesses are
sequentially consistent (the plain read of `*dest` included).
-/
namespace Verif.Atomics

variable {α : Type} [DecidableEq α]

/-- Arithmetic of the value type. -/
structure Arith (α : Type) where
  add : α → α → α
  lt : α → α → Bool
  ne : α → α → Bool

/-- Calls; all return the old value. -/
inductive Call (α : Type)
  /-- `atomic_add` by compare-exchange loop (floating point), lines 61-73 -/
  | add (v : α)
  /-- `__atomic_fetch_add` (integers), line 99 -/
  | fetchAdd (v : α)
  | max (v : α)
  | min (v : α)
  | exch (v : α)
  | cas (expected desired : α)
  /-- `__atomic_fetch_or` and the like -/
  | bits (f : α → α)

/-- Where a thread is inside its current call. -/
inductive Pc (α : Type)
  | start
  /-- line 68 -/
  | addCas (v old : α)
  /-- line 337 -/
  | maxCas (v assumed : α)
  /-- line 384 -/
  | minCas (v assumed : α)

/-- `*dest`, the calls each thread has yet to finish, and the calls finished so far with thread and
result, in the order in which they finished. -/
structure St (α : Type) where
  mem : α
  todo : Nat → List (Call α)
  pc : Nat → Pc α
  done : List (Nat × Call α × α)

def init (x : α) (todo : Nat → List (Call α)) : St α := ⟨x, todo, fun _ => .start, []⟩

/-- Functional update. -/
def upd {β : Type} (f : Nat → β) (i : Nat) (x : β) : Nat → β := fun j => if j = i then x else f j

/-- Outcome of a step inside a call: go on at a program point, or return a value. -/
inductive Next (α : Type)
  | go (pc : Pc α)
  | ret (x : α)

/-- `atomic_cas`: value returned and memory afterwards; lines 278-280. -/
def cas (mem expected desired : α) : α × α := (mem, if mem = expected then desired else mem)

/-- The loop condition `assumed < val` of `atomic_max`; lines 336-337. -/
def maxTest (A : Arith α) (v assumed : α) : Next α :=
  if A.lt assumed v then .go (.maxCas v assumed) else .ret assumed

/-- The loop condition `assumed > val` of `atomic_min`; lines 383-384. -/
def minTest (A : Arith α) (v assumed : α) : Next α :=
  if A.lt v assumed then .go (.minCas v assumed) else .ret assumed

/-- One access of `*dest` by a thread executing call `c`: memory afterwards and what follows. -/
def access (A : Arith α) (mem : α) (c : Call α) : Pc α → α × Next α
  | .start =>
    match c with
    | .add v => (mem, .go (.addCas v mem))
    | .fetchAdd v => (A.add mem v, .ret mem)
    | .max v => (mem, maxTest A v mem)
    | .min v => (mem, minTest A v mem)
    | .exch v => (v, .ret mem)
    | .cas e d => let r := cas mem e d; (r.2, .ret r.1)
    | .bits f => (f mem, .ret mem)
  | .addCas v old =>
    let r := cas mem old (A.add old v)
    (r.2, if r.1 ≠ old then .go (.addCas v r.1) else .ret old)
  | .maxCas v assumed =>
    let r := cas mem assumed v
    (r.2, if A.ne r.1 assumed then maxTest A v r.1 else .ret r.1)
  | .minCas v assumed =>
    let r := cas mem assumed v
    (r.2, if A.ne r.1 assumed then minTest A v r.1 else .ret r.1)

/-- Thread `t` makes its next access (nothing happens if it has no call left). -/
def step (A : Arith α) (s : St α) (t : Nat) : St α :=
  match s.todo t with
  | [] => s
  | c :: cs =>
    match access A s.mem c (s.pc t) with
    | (m, .go p) => { s with mem := m, pc := upd s.pc t p }
    | (m, .ret x) =>
      ⟨m, upd s.todo t cs, upd s.pc t .start, s.done ++ [(t, c, x)]⟩

/-- An interleaving. -/
def run (A : Arith α) (s : St α) (l : List Nat) : St α := l.foldl (step A) s

/-- `float` comparison on bit patterns (IEEE 754 single precision): sign and magnitude as an integer. -/
def f32key (b : BitVec 32) : Int :=
  if b.toNat < 2 ^ 31 then b.toNat else -(b.toNat - 2 ^ 31 : Int)

def f32nan (b : BitVec 32) : Bool := decide (b.toNat % 2 ^ 31 > 0x7f800000)

/-- `float` operators `<` and `!=`; addition is left open. -/
def f32 (add : BitVec 32 → BitVec 32 → BitVec 32) : Arith (BitVec 32) where
  add := add
  lt a b := !f32nan a && !f32nan b && decide (f32key a < f32key b)
  ne a b := f32nan a || f32nan b || decide (f32key a ≠ f32key b)

end Verif.Atomics
