import Verif.Model.Phase
/-!
Model of the radix sorts: OpenMP policy (`include/zensim/omp/execution/ExecutionPolicy.hpp`
891-1016 `radix_sort_impl`, 1029-1159 `radix_sort_pair_impl`) and sequential policy
(`include/zensim/execution/ExecutionPolicy.hpp` 457-526 `radix_sort`, 527-608 `radix_sort_pair`).

An element is a key of `w` bits with a value of any type (`Unit` for the versions without values).
Simplifications: a key and its value are stored together (the code stores them to the same index of
two arrays by consecutive statements of the same thread); indices are natural numbers; a `single`
section is one step between barriers; `(x >> st)` is the shift of the `w`-bit key (narrow keys are
promoted to `int` first, which changes none of the bits selected by the mask).
-/
namespace Verif.Radix
open Verif.Phase

/-- Memory locations: input, output, the two buffers, `binSizes[t][d]`, `binGlobalSizes[d]`,
`binOffsets[d]`. -/
inductive Loc
  | inp (i : Nat)
  | out (i : Nat)
  | buf (b : Bool) (i : Nat)
  | bin (t d : Nat)
  | glob (d : Nat)
  | off (d : Nat)
deriving DecidableEq

/-- Content of a location: a counter or an element. -/
inductive Cell (w : Nat) (V : Type)
  | num (n : Nat)
  | elt (k : BitVec w) (v : V)

abbrev Mem (w : Nat) (V : Type) := Loc → Cell w V

variable {w : Nat} {V : Type}

/-- Counter in a cell. -/
def Cell.nat : Cell w V → Nat
  | .num n => n
  | .elt _ _ => 0

/-- Key in a cell. -/
def Cell.key : Cell w V → BitVec w
  | .num _ => 0
  | .elt k _ => k

/-- `x ^ ((KeyT)1 << (sizeof(KeyT) * 8 - 1))` for signed keys, `x` for unsigned ones,
omp ExecutionPolicy.hpp 926-929, 1061-1064. -/
def Cell.bias (signed : Bool) : Cell w V → Cell w V
  | .num n => .num n
  | .elt k v => .elt (if signed then k ^^^ (1#w <<< (w - 1)) else k) v

/-- `(cur[i] >> st) & binMask`, omp ExecutionPolicy.hpp 963, 1099. -/
def digit (signed : Bool) (st mask : Nat) (c : Cell w V) : Nat :=
  (if signed then c.key.sshiftRight st else c.key >>> st).toNat &&& mask

def put (l : Loc) (e : Mem w V → Cell w V) : Mem w V → Mem w V := fun s => upd s l (e s)

/-- Where the input is read: a separate range or the output range itself. -/
def rd (inPlace : Bool) (i : Nat) : Loc := if inPlace then .out i else .inp i

/-- One iteration of the first `parallel for`, omp ExecutionPolicy.hpp 925-930, 1060-1066.  Every
iteration is its own thread: that covers every distribution of iterations. -/
def copyIn (signed inPlace : Bool) (i : Nat) : List (Mem w V → Mem w V) :=
  [put (.buf false i) (fun s => (s (rd inPlace i)).bias signed)]

/-- One iteration of the last `parallel for`, omp ExecutionPolicy.hpp 1007-1013, 1149-1156. -/
def copyOut (signed b : Bool) (i : Nat) : List (Mem w V → Mem w V) :=
  [put (.out i) (fun s => (s (.buf b i)).bias signed)]

/-- `nwork = (dist + nths - 1) / nths`, `l = nwork * tid`, omp ExecutionPolicy.hpp 946, 954. -/
def lo (n T t : Nat) : Nat := (n + T - 1) / T * t

/-- `r = l + nwork; if (r > dist) r = dist;`, omp ExecutionPolicy.hpp 955-956. -/
def hi (n T t : Nat) : Nat :=
  if lo n T t + (n + T - 1) / T > n then n else lo n T t + (n + T - 1) / T

/-- Local count of thread `t`, omp ExecutionPolicy.hpp 961-963, 1097-1099. -/
def count (signed b : Bool) (n T st mask bins t : Nat) : List (Mem w V → Mem w V) :=
  (List.range bins).map (fun d => put (.bin t d) (fun _ => .num 0)) ++
  if lo n T t < n then
    (List.range' (lo n T t) (hi n T t - lo n T t)).map (fun i s =>
      put (.bin t (digit signed st mask (s (.buf b i))))
        (fun s => .num ((s (.bin t (digit signed st mask (s (.buf b i))))).nat + 1)) s)
  else []

/-- `binGlobalSizes[i] = 0; for (j < nths) binGlobalSizes[i] += binSizes[j][i];`,
omp ExecutionPolicy.hpp 971-972, 1107-1108. -/
def sumBin (T d : Nat) (s : Mem w V) : Mem w V :=
  (List.range T).foldl (fun s j =>
    put (.glob d) (fun s => .num ((s (.glob d)).nat + (s (.bin j d)).nat)) s)
    (put (.glob d) (fun _ => .num 0) s)

/-- The loop over the bins with its `break`; `true` means `skip`,
omp ExecutionPolicy.hpp 970-977, 1106-1113. -/
def reduceBins (n T : Nat) : List Nat → Mem w V → Bool × Mem w V
  | [], s => (false, s)
  | d :: ds, s =>
    if ((sumBin T d s) (.glob d)).nat = n then (true, sumBin T d s)
    else reduceBins n T ds (sumBin T d s)

/-- `binOffsets[0] = 0; for (i = 1; ..) binOffsets[i] = binOffsets[i-1] + binGlobalSizes[i-1];`,
omp ExecutionPolicy.hpp 981-983, 1117-1119. -/
def offsets (bins : Nat) (s : Mem w V) : Mem w V :=
  (List.range' 1 (bins - 1)).foldl (fun s i =>
    put (.off i) (fun s => .num ((s (.off (i - 1))).nat + (s (.glob (i - 1))).nat)) s)
    (put (.off 0) (fun _ => .num 0) s)

/-- `binSizes[0][i] += binOffsets[i]; for (j = 1; j < nths) binSizes[j][i] += binSizes[j-1][i];` for
every bin, omp ExecutionPolicy.hpp 986-989, 1122-1125. -/
def localOffsets (T bins : Nat) (s : Mem w V) : Mem w V :=
  (List.range bins).foldl (fun s i =>
    (List.range' 1 (T - 1)).foldl (fun s j =>
      put (.bin j i) (fun s => .num ((s (.bin j i)).nat + (s (.bin (j - 1) i)).nat)) s)
      (put (.bin 0 i) (fun s => .num ((s (.bin 0 i)).nat + (s (.off i)).nat)) s)) s

/-- One iteration of the distribution loop: `loc = --binSizes[tid][digit]; next[loc] = cur[i];`,
omp ExecutionPolicy.hpp 997-998, 1133-1137.  A counter at zero would
become negative in the code; here it stays at zero (the theorems imply it is positive). -/
def distStep (signed b : Bool) (st mask t i : Nat) : List (Mem w V → Mem w V) :=
  [fun s => put (.bin t (digit signed st mask (s (.buf b i))))
      (fun s => .num ((s (.bin t (digit signed st mask (s (.buf b i))))).nat - 1)) s,
   fun s => put (.buf (!b) (s (.bin t (digit signed st mask (s (.buf b i))))).nat)
      (fun s => s (.buf b i)) s]

/-- Distribution by thread `t`, from `r - 1` down to `l`, omp ExecutionPolicy.hpp 996-998. -/
def distribute (signed b : Bool) (n T st mask t : Nat) : List (Mem w V → Mem w V) :=
  if lo n T t < n then
    (List.range' (lo n T t) (hi n T t - lo n T t)).reverse.flatMap (distStep signed b st mask t)
  else []

/-- One pass with `T` threads over buffer `b`; the resulting buffer is the last-but-one argument,
omp ExecutionPolicy.hpp 933-1005, 1069-1147. -/
inductive Pass (signed : Bool) (n st mask bins : Nat) : Bool → Mem w V → Bool → Mem w V → Prop
  | skip (T : Nat) (b : Bool) (s s1 s2 : Mem w V) : 0 < T →
      Runs T [count signed b n T st mask bins] s s1 →
      reduceBins n T (List.range bins) s1 = (true, s2) → Pass signed n st mask bins b s b s2
  | move (T : Nat) (b : Bool) (s s1 s2 s3 : Mem w V) : 0 < T →
      Runs T [count signed b n T st mask bins] s s1 →
      reduceBins n T (List.range bins) s1 = (false, s2) →
      Runs T [distribute signed b n T st mask] (localOffsets T bins (offsets bins s2)) s3 →
      Pass signed n st mask bins b s (!b) s3

/-- The loop over the passes, omp ExecutionPolicy.hpp 933-937, 1069-1073. -/
inductive Passes (signed : Bool) (n ebit : Nat) :
    (st mask bins : Nat) → Bool → Mem w V → Bool → Mem w V → Prop
  | done (st mask bins : Nat) (b : Bool) (s : Mem w V) : ¬ st < ebit →
      Passes signed n ebit st mask bins b s b s
  | full (st mask bins : Nat) (b b1 b2 : Bool) (s s1 s2 : Mem w V) : st < ebit → ¬ st + 8 > ebit →
      Pass signed n st mask bins b s b1 s1 → Passes signed n ebit (st + 8) mask bins b1 s1 b2 s2 →
      Passes signed n ebit st mask bins b s b2 s2
  | last (st mask bins : Nat) (b b1 b2 : Bool) (s s1 s2 : Mem w V) : st < ebit → st + 8 > ebit →
      Pass signed n st (mask >>> (st + 8 - ebit)) (bins >>> (st + 8 - ebit)) b s b1 s1 →
      Passes signed n ebit (st + 8) (mask >>> (st + 8 - ebit)) (bins >>> (st + 8 - ebit)) b1 s1 b2 s2 →
      Passes signed n ebit st mask bins b s b2 s2

/-- `radix_sort_impl`, `radix_sort_pair_impl`, omp ExecutionPolicy.hpp 891-1016, 1029-1159. -/
def RadixSort (signed inPlace : Bool) (n sbit ebit : Nat) (s s' : Mem w V) : Prop :=
  ∃ s1 s2 b, Runs n [copyIn signed inPlace] s s1 ∧
    Passes signed n ebit sbit ((1 <<< 8) - 1) (1 <<< 8) false s1 b s2 ∧
    Runs n [copyOut signed b] s2 s'

/-! ### Sequential policy -/

/-- `for (i < binCount) binGlobalSizes[i] = 0; for (i < dist) binGlobalSizes[..]++;`,
ExecutionPolicy.hpp 498-499, 574-575. -/
def seqCount (signed b : Bool) (n st mask bins : Nat) (s : Mem w V) : Mem w V :=
  (List.range n).foldl (fun s i =>
      put (.glob (digit signed st mask (s (.buf b i))))
        (fun s => .num ((s (.glob (digit signed st mask (s (.buf b i))))).nat + 1)) s)
    ((List.range bins).foldl (fun s d => put (.glob d) (fun _ => .num 0) s) s)

/-- `for (i = 1; i < binCount; ++i) { if (binGlobalSizes[i] == dist) { skip = true; break; }
binOffsets[i] = ..}`, ExecutionPolicy.hpp 501-509, 577-585. -/
def seqOffsets (n : Nat) : List Nat → Bool → Mem w V → Bool × Mem w V
  | [], skip, s => (skip, s)
  | i :: is, skip, s =>
    if (s (.glob i)).nat = n then (true, s)
    else seqOffsets n is skip
      (put (.off i) (fun s => .num ((s (.off (i - 1))).nat + (s (.glob (i - 1))).nat)) s)

/-- Distribution, ExecutionPolicy.hpp 511-514, 587-594. -/
def seqDistribute (signed b : Bool) (n st mask bins : Nat) (s : Mem w V) : Mem w V :=
  (List.range n).reverse.foldl (fun s i =>
      let d := digit signed st mask (s (.buf b i))
      let s := put (.glob d) (fun s => .num ((s (.glob d)).nat - 1)) s
      put (.buf (!b) (s (.glob d)).nat) (fun s => s (.buf b i)) s)
    ((List.range bins).foldl (fun s i =>
      put (.glob i) (fun s => .num ((s (.glob i)).nat + (s (.off i)).nat)) s) s)

/-- One pass, ExecutionPolicy.hpp 498-517, 574-598. -/
def seqPass (signed : Bool) (n st mask bins : Nat) (b : Bool) (s : Mem w V) : Bool × Mem w V :=
  let s := put (.off 0) (fun _ => .num 0) (seqCount signed b n st mask bins s)
  let r := seqOffsets n (List.range' 1 (bins - 1)) ((s (.glob 0)).nat == n) s
  if r.1 then (b, r.2) else (!b, seqDistribute signed b n st mask bins r.2)

/-- The loop over the passes, ExecutionPolicy.hpp 492-518, 568-599. -/
def seqPasses (signed : Bool) (n ebit st mask bins : Nat) (b : Bool) (s : Mem w V) :
    Bool × Mem w V :=
  if st < ebit then
    if st + 8 > ebit then
      let r := seqPass signed n st (mask >>> (st + 8 - ebit)) (bins >>> (st + 8 - ebit)) b s
      seqPasses signed n ebit (st + 8) (mask >>> (st + 8 - ebit)) (bins >>> (st + 8 - ebit)) r.1 r.2
    else
      let r := seqPass signed n st mask bins b s
      seqPasses signed n ebit (st + 8) mask bins r.1 r.2
  else (b, s)
termination_by ebit - st

/-- `radix_sort`, `radix_sort_pair`, ExecutionPolicy.hpp 457-608. -/
def seqRadixSort (signed inPlace : Bool) (n sbit ebit : Nat) (s : Mem w V) : Mem w V :=
  let s := (List.range n).foldl (fun s i => exec (copyIn signed inPlace i) s) s
  let r := seqPasses signed n ebit sbit ((1 <<< 8) - 1) (1 <<< 8) false s
  (List.range n).foldl (fun s i => exec (copyOut signed r.1 i) s) r.2

end Verif.Radix
