import Verif.Model.Bvh
import Verif.Model.SparseBuild
import Verif.Props.Iter
/-!
Model of `SpatialHash`, `include/zensim/container/SpatialHash.hpp` (line numbers refer to this file): `build` 134-229
and `iter_neighbors` 95-127.  The hash table is the model of `bht` in `Verif.Model.Bht` (runs are defined in
`Verif.Props.Bht`), the exclusive scan that of `Verif.Model.Scan`, the loop over the cells of a box that of `Collapse`
in `Verif.Model.Iter`.

A kernel launch is an arbitrary interleaving of its tasks.  An access out of bounds is the outcome `bad` (or `none`).
Simplifications:
* coordinates are elements of any type; `scale` is the multiplication by `1 / dx` in floating point, whose result is a
  rational number (infinities and NaN are left out).  Converting to `int` does not overflow.
* the insertions of one task need not happen in order: every interleaving of all insertions is allowed.
* a task of the last kernel takes a position and writes to it in one step: no other task gets this position.
* counts, offsets and subscripts are natural numbers that do not overflow; a negative one is an access out of bounds.
* the memory that `Vector` hands out for `_offsets` and `_indices` holds arbitrary values.
-/
namespace Verif.SpatialHash
open Verif.Phase
open Verif.Bvh (Box)

/-- `integer_coord_type`, line 24. -/
abbrev Key := List Int

variable {dim : Nat} {T : Type}

/-- `mi`, lines 96-98, 159-161, 186-188, 213-215. -/
def lower (scale : T → Rat) (b : Box dim T) : List Int := List.ofFn fun d => (scale (b.lo d)).floor

/-- `ma`, lines 99-101, 162-163, 189-190, 216-217. -/
def upper (scale : T → Rat) (b : Box dim T) : List Int := List.ofFn fun d => (scale (b.hi d)).ceil

/-- `ma - mi`. -/
def extents (scale : T → Rat) (b : Box dim T) : List Int :=
  List.zipWith (fun a b => b - a) (lower scale b) (upper scale b)

/-- The keys `mi + make_vec<int>(loc)` of the loop over `Collapse(ma - mi)`, lines 102-104, 164-165, 191-193, 218-220.
A negative extent acts as zero (`n >= get<I>(ns)`, ZpcIterator.hpp 530) in any but the first dimension; in the first
the loop does not end before the counter overflows: `none`. -/
def cells (scale : T → Rat) (b : Box dim T) : Option (List Key) :=
  if (extents scale b).headD 0 < 0 then none
  else some ((Iter.tuples (Iter.effective ((extents scale b).map Int.toNat))).map fun loc =>
    List.zipWith (fun a (l : Nat) => a + l) (lower scale b) loc)

inductive Outcome (A : Type)
  | throws
  | bad
  | ok (a : A)

/-! ## The table -/

/-- What a table depends on: hash functions, sentinel key, width of `size_type`, `next_2pow`. -/
structure Params where
  hf : Nat → Key → Nat
  hole : Key
  width : Nat
  next2pow : Nat → Nat

/-- The table for `n` expected entries, with bucket size 16 (line 25). -/
def Params.cfg (p : Params) (n : Nat) : Bht.Cfg Key :=
  { B := 16, nb := Bht.evaluateTableSize p.next2pow 16 n / 16, hf := p.hf, hole := p.hole, width := p.width }

/-- `_table` together with the calls of `insert` since it was allocated or resized: `n0` of them by `resize`, for the
keys `act`, then one for each of `ks`. -/
structure Table where
  cfg : Bht.Cfg Key
  n0 : Nat
  act : Nat → Key
  ks : List Key
  tab : Bht.St Key

/-- The calls. -/
def task (n0 : Nat) (act : Nat → Key) (ks : List Key) (t : Nat) : Bht.Task Key :=
  if t < n0 then Bht.resizeTask act t else { key := ks.getD (t - n0) [], given := none, enqueue := true }

/-- The table after further calls. -/
def Table.grow (tb : Table) (cs : List Key) (s : Bht.St Key) : Table := { tb with ks := tb.ks ++ cs, tab := s }

/-- The kernel of lines 155-166, where `cs` are the cells of all primitives. -/
def Inserts (tb : Table) (cs : List Key) (r : Option (Bht.St Key)) : Prop :=
  ∃ sched : List (Nat × Bool), (∀ x ∈ sched, tb.n0 + tb.ks.length ≤ x.1 ∧ x.1 < tb.n0 + (tb.ks ++ cs).length) ∧
    Bht.run tb.cfg (task tb.n0 tb.act (tb.ks ++ cs)) tb.tab sched = r ∧
    ∀ s, r = some s → ∀ t, tb.n0 + tb.ks.length ≤ t → t < tb.n0 + (tb.ks ++ cs).length → Bht.result s t ≠ none

/-- `_table.resize(policy, n)`, line 175; Bht.hpp 326-341. -/
inductive Resized (p : Params) (n : Nat) (tb : Table) : Option Table → Prop
  | keep : (p.cfg n).size ≤ tb.cfg.size → Resized p n tb (some tb)
  | run (act : Nat → Key) (indices : Nat → Nat) (sched : List (Nat × Bool)) (r : Option (Bht.St Key)) :
      tb.cfg.size < (p.cfg n).size → (∀ i < tb.tab.cnt, act i = tb.tab.active i) → (∀ x ∈ sched, x.1 < tb.tab.cnt) →
      Bht.run (p.cfg n) (task tb.tab.cnt act []) ((p.cfg n).empty tb.tab.cnt act indices) sched = r →
      (∀ s, r = some s → Bht.Finished s tb.tab.cnt) →
      Resized p n tb (r.map fun s => ⟨p.cfg n, tb.tab.cnt, act, [], s⟩)

/-- The loop of lines 154-176 after `a` retries, `n` being `expectedNumEntries`. -/
inductive Filled (p : Params) (cs : List Key) : Nat → Nat → Table → Outcome Table → Prop
  | insertBad {a n : Nat} {tb : Table} : Inserts tb cs none → Filled p cs a n tb .bad
  | ok {a n : Nat} {tb : Table} {s : Bht.St Key} : Inserts tb cs (some s) → s.success = true →
      Filled p cs a n tb (.ok (tb.grow cs s))
  | throws {a n : Nat} {tb : Table} {s : Bht.St Key} : Inserts tb cs (some s) → s.success = false → 4 < a + 1 →
      Filled p cs a n tb .throws
  | resizeBad {a n : Nat} {tb : Table} {s : Bht.St Key} : Inserts tb cs (some s) → s.success = false → ¬ 4 < a + 1 →
      Resized p (n * 4) (tb.grow cs s) none → Filled p cs a n tb .bad
  | retry {a n : Nat} {tb tb' : Table} {s : Bht.St Key} {r : Outcome Table} : Inserts tb cs (some s) →
      s.success = false → ¬ 4 < a + 1 → Resized p (n * 4) (tb.grow cs s) (some tb') →
      Filled p cs (a + 1) (n * 4) tb' r → Filled p cs a n tb r

/-! ## The lists of primitives -/

/-- The iterations of task `i` in the last two kernels; `cs i` are the cells of primitive `i`. -/
def visits (cs : List (List Key)) (i : Nat) : List (Nat × Key) := (cs.getD i []).map (i, ·)

/-- `atomic_add(&counts[table.query(key)], 1)`, lines 193-195. -/
def count (tb : Table) (counts : List Nat) (x : Nat × Key) : Option (List Nat) :=
  (Bht.query tb.cfg tb.tab x.2).bind fun c => counts[c]?.map fun v => counts.set c (v + 1)

/-- `indices[offsets[cno] + atomic_add(&counts[cno], -1) - 1] = i`, lines 220-223. -/
def place (tb : Table) (offsets : List Nat) (s : List Nat × List Nat) (x : Nat × Key) : Option (List Nat × List Nat) :=
  (Bht.query tb.cfg tb.tab x.2).bind fun c => offsets[c]?.bind fun o => s.1[c]?.bind fun v =>
    if 0 < v ∧ o + (v - 1) < s.2.length then some (s.1.set c (v - 1), s.2.set (o + (v - 1)) x.1) else none

/-- `SpatialHash`, lines 55-63; `scale` stands for `_dx`. -/
structure Hash (T : Type) where
  scale : T → Rat
  table : Table
  indices : List Nat
  offsets : List Nat

/-- `build(policy, dx, primBvs)`, lines 134-229; `small` is the test of line 146, `old` the structure before. -/
inductive Build (p : Params) (scale : T → Rat) (small : Bool) (prims : List (Box dim T)) (old : Hash T) :
    Outcome (Hash T) → Prop
  | side : small = true → Build p scale small prims old .throws
  | none : small = false → prims = [] → Build p scale small prims old (.ok { old with scale := scale })
  | endless : small = false → prims ≠ [] → prims.mapM (cells scale) = none → Build p scale small prims old .bad
  | table {cs : List (List Key)} {act : Nat → Key} {ind : Nat → Nat} {r : Outcome Table} : small = false → prims ≠ [] →
      prims.mapM (cells scale) = some cs →
      Filled p cs.flatten 0 prims.length ⟨p.cfg prims.length, 0, act, [], (p.cfg prims.length).empty 0 act ind⟩ r →
      (∀ tb, r ≠ .ok tb) → Build p scale small prims old (match r with | .throws => .throws | _ => .bad)
  | count {cs : List (List Key)} {act : Nat → Key} {ind : Nat → Nat} {tb : Table} {sched : List (Nat × Key)} :
      small = false → prims ≠ [] → prims.mapM (cells scale) = some cs →
      Filled p cs.flatten 0 prims.length ⟨p.cfg prims.length, 0, act, [], (p.cfg prims.length).empty 0 act ind⟩ (.ok tb) →
      Interleave prims.length (visits cs) sched →
      sched.foldlM (count tb) (List.replicate (tb.tab.cnt + 1) 0) = none → Build p scale small prims old .bad
  | place {cs : List (List Key)} {act : Nat → Key} {ind : Nat → Nat} {tb : Table} {sched sched' : List (Nat × Key)}
      {counts offsets indices : List Nat} {r : Option (List Nat × List Nat)} :
      small = false → prims ≠ [] → prims.mapM (cells scale) = some cs →
      Filled p cs.flatten 0 prims.length ⟨p.cfg prims.length, 0, act, [], (p.cfg prims.length).empty 0 act ind⟩ (.ok tb) →
      Interleave prims.length (visits cs) sched →
      sched.foldlM (count tb) (List.replicate (tb.tab.cnt + 1) 0) = some counts → Sparse.ExScan counts offsets →
      indices.length = offsets.getD tb.tab.cnt 0 → Interleave prims.length (visits cs) sched' →
      sched'.foldlM (place tb offsets) (counts, indices) = r →
      Build p scale small prims old (match r with
        | Option.none => .bad
        | some st => .ok ⟨scale, tb, st.2, offsets⟩)

/-! ## Queries -/

/-- What `f` is called with for one cell, lines 104-109, 120-126.  The loop ends at `no == ed` only. -/
def visitCell (h : Hash T) (k : Key) : Option (List Nat) :=
  match Bht.query h.table.cfg h.table.tab k with
  | none => some []
  | some c => h.offsets[c]?.bind fun st => h.offsets[c + 1]?.bind fun ed =>
      if ed < st then none else (List.range' st (ed - st)).mapM fun no => h.indices[no]?

/-- `iter_neighbors(bv, f)`, lines 95-111: what `f` is called with, in this order. -/
def iterNeighbors (h : Hash T) (bv : Box dim T) : Option (List Nat) :=
  (cells h.scale bv).bind fun ks => (ks.mapM (visitCell h)).map List.flatten

/-- `iter_neighbors(p, f)`, lines 113-127. -/
def iterPoint (h : Hash T) (x : Fin dim → T) : Option (List Nat) := visitCell h (List.ofFn fun d => (h.scale (x d)).floor)

end Verif.SpatialHash
