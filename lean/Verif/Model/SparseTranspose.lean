import Verif.Model.SparseBuild
import Verif.Model.Radix
import Verif.Model.Bits
/-!
Model of `transposeFrom` and `localOrdering`, `include/zensim/math/matrix/SparseMatrix.hpp` (line numbers refer to this
file): kernels 312-358, `transposeFrom` 578-642, `localOrdering` 745-795 (host policies).

Simplifications, in addition to those of `Verif.Model.SparseBuild`:
* `index_type` is `int`; the radix sort is that of `Verif.Model.Radix` on 32-bit signed keys.
* sorting a line is one step: a line reads arrays that no task writes, and its own part of the output.  The lines are
  sorted in any order.
* the branch for different storage orders (lines 592-614) is not modelled as part of `TransposeFrom`: it compares
  `this != &o` for pointers to different classes, which no compiler accepts, so that the template cannot be instantiated
  for matrices of different storage orders.  What its body would do is `swapped`.
-/
namespace Verif.Sparse
open Verif.Phase

variable {V : Type}

/-- `for (k = ptrs[o]; k != ptrs[o + 1]; ++k)`, lines 321-323, 333-335; `none`: out of bounds, or the loop does not end. -/
def slotsOf (ptrs : List Nat) (o : Nat) : Option (List Nat) :=
  ptrs[o]?.bind fun bg => ptrs[o + 1]?.bind fun ed => if bg ≤ ed then some (List.range' bg (ed - bg)) else none

/-- `_transpose_from_count_offset`, lines 318-329. -/
def countTask (ptrs inds : List Nat) (o : Nat) : Option (List Tally) :=
  (slotsOf ptrs o).bind fun ks => ks.mapM fun k => inds[k]?.map fun i => ⟨some k, i⟩

/-- Launch of `n` tasks that count; `none` is an access out of bounds. -/
inductive Counted (n : Nat) (task : Nat → Option (List Tally)) (s : List Nat × List Nat) : Option (List Nat × List Nat) → Prop
  | task : (List.range n).mapM task = none → Counted n task s none
  | run (ts : List (List Tally)) (sched : List Tally) : (List.range n).mapM task = some ts →
      Interleave n (fun t => ts.getD t []) sched → Counted n task s (sched.foldlM tally s)

/-- `_transpose_from_reorder_vals`, lines 330-358; `act` is `valActivated`, `tr` the transposition of a value (the identity
for numbers). -/
def reorderTask (tr : V → V) (act : Bool) (loc : List Nat) (o : Mat V) (ptrs : List Nat) (k0 : Nat) : Option (List (Put V)) :=
  (slotsOf o.ptrs k0).bind fun ks => (ks.mapM fun k =>
    o.inds[k]?.bind fun i => ptrs[i]?.bind fun p => loc[k]?.bind fun l =>
      if act then o.vals[k]?.map fun v => [Put.ind (p + l) k0, Put.val (p + l) fun _ => tr v]
      else some [Put.ind (p + l) k0]).map List.flatten

/-- `hasValues`, lines 98-100. -/
def Mat.hasValues (m : Mat V) : Bool := m.vals.length == m.inds.length && m.vals.length != 0

/-! ## `localOrdering` -/

/-- The input of the radix sort of one line. -/
def lineMem {P : Type} (l : List (Nat × P)) : Radix.Mem 32 P
  | .inp i => match l[i]? with
    | some x => .elt (BitVec.ofNat 32 x.1) x.2
    | none => .num 0
  | _ => .num 0

def cellPair {P : Type} : Radix.Cell 32 P → Option (Nat × P)
  | .elt k v => some (k.toNat, v)
  | .num _ => none

/-- `radix_sort(seq_exec(), .., 0, bits)`, `radix_sort_pair(seq_exec(), .., 0, bits)`, lines 760-761, 783-785. -/
def sortLine {P : Type} (bits : Nat) (l : List (Nat × P)) : Option (List (Nat × P)) :=
  (List.range l.length).mapM fun i => cellPair (Radix.seqRadixSort true false l.length 0 bits (lineMem l) (.out i))

/-- `std::max((int)bit_count(innerSize), 1)`, lines 761, 785. -/
def orderBits (inner : Nat) : Nat := max (Bits.bitCount inner) 1

/-- One line: lines 758-761, 781-785.  `a` is the output. -/
def orderLine {P : Type} (ptrs : List Nat) (bits : Nat) (src : List (Nat × P)) (a : List (Nat × P)) (o : Nat) : Option (List (Nat × P)) :=
  ptrs[o]?.bind fun st => ptrs[o + 1]?.bind fun ed =>
    if st ≤ ed ∧ ed ≤ src.length then
      (sortLine bits ((src.drop st).take (ed - st))).map fun l => a.take st ++ l ++ a.drop ed
    else none

/-- `localOrdering`, lines 740-791.  The outputs hold arbitrary values before they are written. -/
inductive LocalOrdering (rm : Bool) (m : Mat V) : Outcome V → Prop
  | keysBad (order : List Nat) (init : List (Nat × Unit)) : m.vals.length = 0 → order.Perm (List.range (m.outer rm)) → init.length = m.inds.length →
      order.foldlM (orderLine m.ptrs (orderBits (m.inner rm)) (m.inds.map fun i => (i, ()))) init = none → LocalOrdering rm m .bad
  | keys (order : List Nat) (init a : List (Nat × Unit)) : m.vals.length = 0 → order.Perm (List.range (m.outer rm)) → init.length = m.inds.length →
      order.foldlM (orderLine m.ptrs (orderBits (m.inner rm)) (m.inds.map fun i => (i, ()))) init = some a →
      LocalOrdering rm m (.ok { m with inds := a.map (·.1) })
  | pairsBad (order : List Nat) (init : List (Nat × Nat)) : m.vals.length ≠ 0 → order.Perm (List.range (m.outer rm)) → init.length = m.inds.length →
      order.foldlM (orderLine m.ptrs (orderBits (m.inner rm)) m.inds.zipIdx) init = none → LocalOrdering rm m .bad
  | pairs (order : List Nat) (init a : List (Nat × Nat)) : m.vals.length ≠ 0 → order.Perm (List.range (m.outer rm)) → init.length = m.inds.length →
      order.foldlM (orderLine m.ptrs (orderBits (m.inner rm)) m.inds.zipIdx) init = some a →
      LocalOrdering rm m (match a.mapM (fun x => m.vals[x.2]?) with
        | none => .bad
        | some vs => .ok { m with inds := a.map (·.1), vals := vs })

/-- `if constexpr (PostOrder) localOrdering(policy)`, line 641. -/
inductive Post (rm : Bool) (m : Mat V) : Bool → Outcome V → Prop
  | plain : Post rm m false (.ok m)
  | ordered {r : Outcome V} : LocalOrdering rm m r → Post rm m true r

/-! ## `transposeFrom` -/

/-- `transposeFrom(policy, o, wrapv<post>{})` of `tgt`, another matrix with the same storage order, lines 615-641.  The number
of rows and columns of `tgt` is left as it is. -/
inductive TransposeFrom (rm post : Bool) (tr : V → V) (tgt o : Mat V) : Outcome V → Prop
  | count {loc : List Nat} : loc.length = o.inds.length →
      Counted (o.outer rm) (countTask o.ptrs o.inds) (List.replicate (o.inner rm + 1) 0, loc) none →
      TransposeFrom rm post tr tgt o .bad
  | fill {loc ptrs inds : List Nat} {vals : List V} {st : List Nat × List Nat} : loc.length = o.inds.length →
      Counted (o.outer rm) (countTask o.ptrs o.inds) (List.replicate (o.inner rm + 1) 0, loc) (some st) → ExScan st.1 ptrs →
      inds.length = o.inds.length → (if o.hasValues then vals.length = o.inds.length else vals = tgt.vals) →
      Puts (o.outer rm) (reorderTask tr o.hasValues st.2 o ptrs) (inds, vals) none → TransposeFrom rm post tr tgt o .bad
  | done {loc ptrs inds : List Nat} {vals : List V} {st : List Nat × List Nat} {s : List Nat × List V} {r : Outcome V} :
      loc.length = o.inds.length →
      Counted (o.outer rm) (countTask o.ptrs o.inds) (List.replicate (o.inner rm + 1) 0, loc) (some st) → ExScan st.1 ptrs →
      inds.length = o.inds.length → (if o.hasValues then vals.length = o.inds.length else vals = tgt.vals) →
      Puts (o.outer rm) (reorderTask tr o.hasValues st.2 o ptrs) (inds, vals) (some s) →
      Post rm ⟨tgt.rows, tgt.cols, ptrs, s.1, s.2⟩ post r → TransposeFrom rm post tr tgt o r

/-- What the branch for different storage orders, lines 593-614, would leave for numbers. -/
def swapped (o : Mat V) : Mat V := { o with rows := o.cols, cols := o.rows }

/-! ## `transposeFrom` of a matrix from itself -/

/-- One round of the second kernel when `o` is the matrix itself: it reads what `_inds` and `_vals` hold now. -/
def selfRound (tr : V → V) (act : Bool) (loc ptrs : List Nat) (k0 : Nat) (s : List Nat × List V) (k : Nat) : Option (List Nat × List V) :=
  s.1[k]?.bind fun i => ptrs[i]?.bind fun p => loc[k]?.bind fun l =>
    if p + l < s.1.length then
      if act then s.2[k]?.bind fun v => if p + l < s.2.length then some (s.1.set (p + l) k0, s.2.set (p + l) (tr v)) else none
      else some (s.1.set (p + l) k0, s.2)
    else none

/-- `transposeFrom(policy, *this, wrapv<post>{})` with the sequential policy, lines 615-641: `_ptrs`, `_inds` and `_vals` are
replaced before the second kernel reads them through `o`. -/
inductive TransposeSelf (rm post : Bool) (tr : V → V) (o : Mat V) : Outcome V → Prop
  | count {loc : List Nat} : loc.length = o.inds.length →
      Counted (o.outer rm) (countTask o.ptrs o.inds) (List.replicate (o.inner rm + 1) 0, loc) none → TransposeSelf rm post tr o .bad
  | fill {loc ptrs inds : List Nat} {vals : List V} {st : List Nat × List Nat} : loc.length = o.inds.length →
      Counted (o.outer rm) (countTask o.ptrs o.inds) (List.replicate (o.inner rm + 1) 0, loc) (some st) → ExScan st.1 ptrs →
      inds.length = o.inds.length → (if o.hasValues then vals.length = o.inds.length else vals = o.vals) →
      ((List.range (o.outer rm)).foldlM (fun s k0 => (slotsOf ptrs k0).bind fun ks =>
        ks.foldlM (selfRound tr o.hasValues st.2 ptrs k0) s) (inds, vals)) = none → TransposeSelf rm post tr o .bad
  | done {loc ptrs inds : List Nat} {vals : List V} {st : List Nat × List Nat} {s : List Nat × List V} {r : Outcome V} :
      loc.length = o.inds.length →
      Counted (o.outer rm) (countTask o.ptrs o.inds) (List.replicate (o.inner rm + 1) 0, loc) (some st) → ExScan st.1 ptrs →
      inds.length = o.inds.length → (if o.hasValues then vals.length = o.inds.length else vals = o.vals) →
      ((List.range (o.outer rm)).foldlM (fun s k0 => (slotsOf ptrs k0).bind fun ks =>
        ks.foldlM (selfRound tr o.hasValues st.2 ptrs k0) s) (inds, vals)) = some s →
      Post rm ⟨o.rows, o.cols, ptrs, s.1, s.2⟩ post r → TransposeSelf rm post tr o r

end Verif.Sparse
