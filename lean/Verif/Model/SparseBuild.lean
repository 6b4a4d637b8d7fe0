import Verif.Model.Sparse
import Verif.Model.Scan
import Verif.Props.Bht
/-!
Model of the construction of sparse matrices, `include/zensim/math/matrix/SparseMatrix.hpp` (line numbers refer to
this file): `build` from triplets 394-466, `build` of the topology 470-529, `fastBuild` 533-576 and their kernels
168-308.  The hash table is the model of `bht` in `Verif.Model.Bht` (runs are defined in `Verif.Props.Bht`), the
exclusive scan that of `Verif.Model.Scan`.

A kernel launch is an arbitrary interleaving of its tasks.  Reading or writing out of bounds is the outcome `bad`.
Simplifications:
* a task that has inserted its entry accesses only the counters and its own local offset, which the table does not
  use; the accesses to the table therefore come first, in every interleaving, and the accesses to the counters after
  them, in every order.  (This includes orders in which a task counts before it inserts; the theorems hold for these
  too.)
* fetching and increasing a counter and storing the local offset is one step: the offset belongs to the task alone.
* in the second kernel a task evaluates what no task writes before its first write.
* counts, offsets and subscripts are natural numbers that do not overflow.
-/
namespace Verif.Sparse
open Verif.Phase

/-- The number of the line of an entry, `i` if `RowMajor` and `j` otherwise. -/
def outerOf (rm : Bool) (e : Nat × Nat) : Nat := if rm then e.1 else e.2

/-- The subscript of an entry within its line. -/
def innerOf (rm : Bool) (e : Nat × Nat) : Nat := if rm then e.2 else e.1

/-- One execution of `localOffsets[slot] = atomic_add(&cnts[line], 1)`, lines 177, 179, 225, 227, 234, 236, 268, 270,
276, 278, 325.  The slot `none` is a negative number. -/
structure Tally where
  slot : Option Nat
  line : Nat

/-- Counters and local offsets after one such execution; `none` is an access out of bounds. -/
def tally (s : List Nat × List Nat) (x : Tally) : Option (List Nat × List Nat) :=
  s.1[x.line]?.bind fun n => x.slot.bind fun k =>
    if k < s.2.length then some (s.1.set x.line (n + 1), s.2.set k n) else none

/-- `exclusive_scan(policy, begin(cnts), end(cnts), begin(ptrs))`, with the sequential or the OpenMP policy. -/
inductive ExScan (cnts : List Nat) : List Nat → Prop
  | seq (s : Scan.Mem Nat) : (∀ i < cnts.length, s (.src i) = cnts.getD i 0) →
      ExScan cnts ((List.range cnts.length).map fun i =>
        exec (Scan.seqExclusive (· + ·) 0 false cnts.length) s (.out i))
  | par (T : Nat) (s s' : Scan.Mem Nat) : 0 < T → (∀ i < cnts.length, s (.src i) = cnts.getD i 0) →
      Runs T (Scan.exclusiveScan (· + ·) 0 false cnts.length T) s s' →
      ExScan cnts ((List.range cnts.length).map fun i => s' (.out i))

/-- A write of the second kernels: `inds[p] = t`, or `vals[p] = f(vals[p])` (atomic). -/
inductive Put (V : Type)
  | ind (p t : Nat)
  | val (p : Nat) (f : V → V)

variable {V : Type}

/-- Subscripts and values after a write. -/
def put (s : List Nat × List V) : Put V → Option (List Nat × List V)
  | .ind p t => if p < s.1.length then some (s.1.set p t, s.2) else none
  | .val p f => s.2[p]?.map fun v => (s.1, s.2.set p (f v))

/-- Launch of `n` tasks that write; `none` is an access out of bounds. -/
inductive Puts (n : Nat) (task : Nat → Option (List (Put V))) (s : List Nat × List V) :
    Option (List Nat × List V) → Prop
  | task : (List.range n).mapM task = none → Puts n task s none
  | run (ts : List (List (Put V))) (sched : List (Put V)) : (List.range n).mapM task = some ts →
      Interleave n (fun t => ts.getD t []) sched → Puts n task s (sched.foldlM put s)

/-- How a call ends. -/
inductive Outcome (V : Type)
  | throws
  | bad
  | ok (m : Mat V)

/-! ## The table of entries -/

/-- `tab.insert({i, j})` of task `t`, lines 175, 223, 232. -/
def insertTask (keys : List (Nat × Nat)) (t : Nat) : Bht.Task (Nat × Nat) :=
  { key := keys.getD t (0, 0), given := none, enqueue := true }

/-- The calls of `insert` for the keys ran, in some interleaving, on a new table. -/
def Inserted (c : Bht.Cfg (Nat × Nat)) (keys : List (Nat × Nat)) (s : Bht.St (Nat × Nat)) : Prop :=
  ∃ active indices, Bht.Ran c (insertTask keys) (c.empty 0 active indices) keys.length s ∧ Bht.Finished s keys.length

/-- `id != sentinel_v`, lines 175, 223: a number, or `failure_token_v`, the lowest number (Bht.hpp:136). -/
def won (s : Bht.St (Nat × Nat)) (t : Nat) : Bool :=
  match Bht.result s t with
  | some (.index _) => true
  | some .failure => true
  | _ => false

/-- The mirrored entries inserted by `_build_hash_entry_mirror<true>`, lines 230-232. -/
def spawned (mirror : Bool) (keys : List (Nat × Nat)) (s : Bht.St (Nat × Nat)) : List (Nat × Nat) :=
  (List.range keys.length).filterMap fun t =>
    let e := keys.getD t (0, 0)
    if mirror && won s t && e.1 != e.2 then some (e.2, e.1) else none

/-- What a task counts after its insertion, lines 175-180, 223-227, 232-236. -/
def countOf (rm : Bool) (e : Nat × Nat) : Bht.Result → Option Tally
  | .index n => some ⟨some n, outerOf rm e⟩
  | .failure => some ⟨none, outerOf rm e⟩
  | .present => none

/-- What all tasks count. -/
def counts (rm : Bool) (keys : List (Nat × Nat)) (s : Bht.St (Nat × Nat)) : List Tally :=
  (List.range keys.length).filterMap fun t => (Bht.result s t).bind (countOf rm (keys.getD t (0, 0)))

/-- What the first kernel leaves behind. -/
structure Hash where
  cfg : Bht.Cfg (Nat × Nat)
  tab : Bht.St (Nat × Nat)
  cnts : List Nat
  loc : List Nat

/-- One round of the loop of lines 428-441, 499-511, with the table `c`: the table and what the counters and local
offsets hold afterwards; `none` is an access out of bounds. -/
def Round (c : Bht.Cfg (Nat × Nat)) (rm mirror : Bool) (nsegs : Nat) (keys : List (Nat × Nat)) (loc : List Nat)
    (tab : Bht.St (Nat × Nat)) (r : Option (List Nat × List Nat)) : Prop :=
  ∃ (extra : List (Nat × Nat)) (ops : List Tally), Inserted c (keys ++ extra) tab ∧ extra = spawned mirror keys tab ∧
    ops.Perm (counts rm (keys ++ extra) tab) ∧ r = ops.foldlM tally (List.replicate (nsegs + 1) 0, loc)

/-- The loop from attempt `a` on; `cfg a` is the table allocated for attempt `a`. -/
inductive Hashed (cfg : Nat → Bht.Cfg (Nat × Nat)) (rm mirror : Bool) (nsegs : Nat) (keys : List (Nat × Nat)) :
    Nat → List Nat → Option Hash → Prop
  | bad {a : Nat} {loc : List Nat} {tab : Bht.St (Nat × Nat)} : Round (cfg a) rm mirror nsegs keys loc tab none →
      Hashed cfg rm mirror nsegs keys a loc none
  | ok {a : Nat} {loc cnts loc' : List Nat} {tab : Bht.St (Nat × Nat)} :
      Round (cfg a) rm mirror nsegs keys loc tab (some (cnts, loc')) → tab.success = true →
      Hashed cfg rm mirror nsegs keys a loc (some ⟨cfg a, tab, cnts, loc'⟩)
  | retry {a : Nat} {loc cnts loc' : List Nat} {tab : Bht.St (Nat × Nat)} {r : Option Hash} :
      Round (cfg a) rm mirror nsegs keys loc tab (some (cnts, loc')) → tab.success = false →
      Hashed cfg rm mirror nsegs keys (a + 1) loc' r → Hashed cfg rm mirror nsegs keys a loc r

/-! ## Construction from triplets -/

/-- The values: `parts` components, `addPart d x a` is `x` with component `d` of `a` added (`atomic_add`, lines 202,
206-207), `zero` is the value after `reset(0)`. -/
structure Adder (V : Type) where
  parts : Nat
  zero : V
  addPart : Nat → V → V → V

/-- `_build_update_entry_with_value`, lines 183-210. -/
def updateTask (s : Adder V) (rm : Bool) (h : Hash) (ptrs : List Nat) (keys : List (Nat × Nat)) (vs : List V) (k : Nat) :
    Option (List (Put V)) :=
  keys[k]?.bind fun e => vs[k]?.bind fun v =>
    (Bht.query h.cfg h.tab e).bind fun id => h.loc[id]?.bind fun l => ptrs[outerOf rm e]?.map fun p =>
      Put.ind (p + l) (innerOf rm e) :: (List.range s.parts).map fun d => .val (p + l) fun x => s.addPart d x v

/-- `build(policy, nrows, ncols, is, js, vs)`, lines 394-466.  `_inds` and the local offsets hold arbitrary values
before they are written. -/
inductive Build (s : Adder V) (cfg : Nat → Bht.Cfg (Nat × Nat)) (rm : Bool) (rows cols : Nat) (is js : List Nat)
    (vs : List V) : Outcome V → Prop
  | sizes : is.length ≠ js.length ∨ is.length ≠ vs.length → Build s cfg rm rows cols is js vs .throws
  | hash {loc : List Nat} : is.length = js.length → is.length = vs.length → loc.length = is.length →
      Hashed cfg rm false (if rm then rows else cols) (is.zip js) 0 loc none → Build s cfg rm rows cols is js vs .bad
  | entries {loc ptrs : List Nat} {h : Hash} : is.length = js.length → is.length = vs.length → loc.length = is.length →
      Hashed cfg rm false (if rm then rows else cols) (is.zip js) 0 loc (some h) → ExScan h.cnts ptrs →
      ptrs.getD (if rm then rows else cols) 0 ≠ h.tab.cnt → Build s cfg rm rows cols is js vs .throws
  | fill {loc ptrs inds : List Nat} {h : Hash} {r : Option (List Nat × List V)} : is.length = js.length → is.length = vs.length → loc.length = is.length →
      Hashed cfg rm false (if rm then rows else cols) (is.zip js) 0 loc (some h) → ExScan h.cnts ptrs →
      ptrs.getD (if rm then rows else cols) 0 = h.tab.cnt → inds.length = h.tab.cnt →
      Puts is.length (updateTask s rm h ptrs (is.zip js) vs) (inds, List.replicate h.tab.cnt s.zero) r →
      Build s cfg rm rows cols is js vs (match r with
        | none => .bad
        | some st => .ok ⟨rows, cols, ptrs, st.1, st.2⟩)

/-! ## Construction of the topology -/

/-- `_build_update_entry`, lines 243-253. -/
def topoTask (rm : Bool) (h : Hash) (ptrs : List Nat) (k : Nat) : Option (List (Put V)) :=
  h.loc[k]?.bind fun l => ptrs[outerOf rm (h.tab.active k)]?.map fun p => [.ind (p + l) (innerOf rm (h.tab.active k))]

/-- `build(policy, nrows, ncols, is, js, wrapv<Mirror>{})`, lines 470-529; `vals` are the values of the matrix before the
call, which keeps them. -/
inductive BuildTopo (cfg : Nat → Bht.Cfg (Nat × Nat)) (rm mirror : Bool) (rows cols : Nat) (is js : List Nat)
    (vals : List V) : Outcome V → Prop
  | sizes : is.length ≠ js.length → BuildTopo cfg rm mirror rows cols is js vals .throws
  | hash {loc : List Nat} : is.length = js.length → loc.length = (if mirror then is.length * 2 else is.length) →
      Hashed cfg rm mirror (if rm then rows else cols) (is.zip js) 0 loc none →
      BuildTopo cfg rm mirror rows cols is js vals .bad
  | entries {loc ptrs : List Nat} {h : Hash} : is.length = js.length → loc.length = (if mirror then is.length * 2 else is.length) →
      Hashed cfg rm mirror (if rm then rows else cols) (is.zip js) 0 loc (some h) → ExScan h.cnts ptrs →
      ptrs.getD (if rm then rows else cols) 0 ≠ h.tab.cnt → BuildTopo cfg rm mirror rows cols is js vals .throws
  | fill {loc ptrs inds : List Nat} {h : Hash} {r : Option (List Nat × List V)} : is.length = js.length → loc.length = (if mirror then is.length * 2 else is.length) →
      Hashed cfg rm mirror (if rm then rows else cols) (is.zip js) 0 loc (some h) → ExScan h.cnts ptrs →
      ptrs.getD (if rm then rows else cols) 0 = h.tab.cnt → inds.length = h.tab.cnt →
      Puts h.tab.cnt (topoTask rm h ptrs) (inds, vals) r →
      BuildTopo cfg rm mirror rows cols is js vals (match r with
        | none => .bad
        | some st => .ok ⟨rows, cols, ptrs, st.1, st.2⟩)

/-! ## Construction without table -/

/-- `_fast_build_record_entry`, lines 261-282. -/
def recordTask (rm mirror : Bool) (keys : List (Nat × Nat)) (k : Nat) : List Tally :=
  let e := keys.getD k (0, 0)
  ⟨some (k * 2), outerOf rm e⟩ ::
    if mirror && e.1 != e.2 then [⟨some (k * 2 + 1), outerOf rm (e.2, e.1)⟩] else []

/-- `_fast_build_update_entry`, lines 283-303. -/
def fastTask (rm mirror : Bool) (loc ptrs : List Nat) (keys : List (Nat × Nat)) (k : Nat) : Option (List (Put V)) :=
  let e := keys.getD k (0, 0)
  loc[k * 2]?.bind fun l => ptrs[outerOf rm e]?.bind fun p =>
    if mirror && e.1 != e.2 then
      loc[k * 2 + 1]?.bind fun l' => ptrs[outerOf rm (e.2, e.1)]?.map fun p' =>
        [.ind (p + l) (innerOf rm e), .ind (p' + l') (innerOf rm (e.2, e.1))]
    else some [.ind (p + l) (innerOf rm e)]

/-- `fastBuild`, lines 533-576. -/
inductive FastBuild (rm mirror : Bool) (rows cols : Nat) (is js : List Nat) (vals : List V) : Outcome V → Prop
  | sizes : is.length ≠ js.length → FastBuild rm mirror rows cols is js vals .throws
  | record {loc : List Nat} {ops : List Tally} : is.length = js.length → loc.length = is.length * 2 →
      Interleave is.length (recordTask rm mirror (is.zip js)) ops →
      ops.foldlM tally (List.replicate ((if rm then rows else cols) + 1) 0, loc) = none →
      FastBuild rm mirror rows cols is js vals .bad
  | fill {loc ptrs inds : List Nat} {ops : List Tally} {st : List Nat × List Nat} {r : Option (List Nat × List V)} : is.length = js.length → loc.length = is.length * 2 →
      Interleave is.length (recordTask rm mirror (is.zip js)) ops →
      ops.foldlM tally (List.replicate ((if rm then rows else cols) + 1) 0, loc) = some st → ExScan st.1 ptrs →
      inds.length = ptrs.getD (if rm then rows else cols) 0 →
      Puts is.length (fastTask rm mirror st.2 ptrs (is.zip js)) (inds, vals) r →
      FastBuild rm mirror rows cols is js vals (match r with
        | none => .bad
        | some st' => .ok ⟨rows, cols, ptrs, st'.1, st'.2⟩)

end Verif.Sparse
