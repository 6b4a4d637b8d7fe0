import Verif.Model.Bht

/-!
Model of `atomicSwitchIfEqual` and `atomicLoad` of `bht` for keys that are neither four nor eight bytes
long (`include/zensim/container/Bht.hpp`, lines 1007-1020 and 1061-1070): the components of the key are
read and written one at a time while the status word of the slot is held as a spin lock.

One slot, one call per thread; a step is one access to shared memory.  The lock operations are atomic
and order the plain accesses (`thread_fence`), so memory is sequentially consistent here.
-/
namespace Verif.BhtLock

open Verif.Bht (upd)

variable {V : Type}

/-- What a thread calls: `atomicLoad` or `atomicSwitchIfEqual` with a key. -/
inductive Op (V : Type) where
  | load
  | switch (key : Nat → V)

/-- Where a call stands. -/
inductive Pc (V : Type) where
  /-- lines 1008, 1062 -/
  | acquire
  /-- lines 1012, 1066: component `d` next, `buf` read so far; after the last one lines 1013-1014 -/
  | read (d : Nat) (buf : Nat → V)
  /-- line 1015 -/
  | write (d : Nat)
  /-- lines 1019, 1069 -/
  | release (val : Nat → V) (won : Bool)
  /-- lines 1020, 1070 -/
  | done (val : Nat → V) (won : Bool)

/-- The components of the key, the status word (held or not), the calls. -/
structure St (V : Type) where
  mem : Nat → V
  locked : Bool
  pc : Nat → Pc V

variable [DecidableEq V]

/-- `temp.val == key_sentinel_v`: the first `dim` components agree; line 1013. -/
def eqUpTo (f g : Nat → V) : Nat → Bool
  | 0 => true
  | d + 1 => eqUpTo f g d && f d == g d

/-- One step of thread `t`; the flag says that its call took effect (it gave the lock back).  `junk` is
what the uninitialised local key holds. -/
def step (dim : Nat) (sent junk : Nat → V) (op : Nat → Op V) (s : St V) (t : Nat) : St V × Bool :=
  match s.pc t with
  | .acquire =>
    if s.locked then (s, false)
    else ({ s with locked := true, pc := upd s.pc t (.read 0 junk) }, false)
  | .read d buf =>
    if d = dim then
      match op t with
      | .load => ({ s with pc := upd s.pc t (.release buf false) }, false)
      | .switch _ =>
        if eqUpTo buf sent dim then ({ s with pc := upd s.pc t (.write 0) }, false)
        else ({ s with pc := upd s.pc t (.release buf false) }, false)
    else ({ s with pc := upd s.pc t (.read (d + 1) (upd buf d (s.mem d))) }, false)
  | .write d =>
    match op t with
    | .load => (s, false)
    | .switch key =>
      if d = dim then ({ s with pc := upd s.pc t (.release key true) }, false)
      else ({ s with mem := upd s.mem d (key d), pc := upd s.pc t (.write (d + 1)) }, false)
  | .release v w => ({ s with locked := false, pc := upd s.pc t (.done v w) }, true)
  | .done _ _ => (s, false)

/-- An interleaving; also the threads in the order in which their calls took effect. -/
def run (dim : Nat) (sent junk : Nat → V) (op : Nat → Op V) (s : St V) : List Nat → St V × List Nat
  | [] => (s, [])
  | t :: rest =>
    let r := step dim sent junk op s t
    let r' := run dim sent junk op r.1 rest
    (r'.1, if r.2 then t :: r'.2 else r'.2)

/-- A slot that holds the sentinel, before the calls. -/
def init (sent : Nat → V) : St V := { mem := sent, locked := false, pc := fun _ => .acquire }

end Verif.BhtLock
