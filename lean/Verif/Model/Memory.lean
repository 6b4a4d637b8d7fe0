import Verif.Model.Bits

/-!
Model of the host memory resources of `include/zensim/memory/Allocator.cpp`.

Addresses and sizes are 64-bit; pointers are flat addresses that wrap around. `none` is undefined behaviour
(division by zero, access outside a vector, use of an uninitialised member).  The operating system calls
`mmap`, `mprotect` and `madvise` are oracles that may fail; their effect on the pages is the field `prot`,
one entry for each chunk of 2 MB.  The Windows branches, the constructors' failure paths and the printing
are left out.
-/
namespace Verif.Memory
open Verif.Bits

/-! ## `stack_allocator`; lines 295-321 -/

/-- `_data`, `_head`, `_tail`, `_align`. -/
structure Stack where
  data : BitVec 64
  head : BitVec 64
  tail : BitVec 64
  align : BitVec 64

/-- The constructor, lines 296-300; `addr` is what the upstream resource returns. -/
def Stack.make (addr total align : BitVec 64) : Stack := { data := addr, head := addr, tail := addr + total, align }

/-- `head + align - 1 - ((size_t)head + align - 1) % align`; lines 268, 308. -/
def alignUp (head align : BitVec 64) : BitVec 64 := head + align - 1 - (head + align - 1) % align

/-- `allocate`, lines 306-314: the block, or `none` when `std::bad_alloc` is thrown. -/
def Stack.allocate (s : Stack) (bytes : BitVec 64) : Option (Option (BitVec 64) × Stack) :=
  if s.align = 0 then none
  else
    let ret := alignUp s.head s.align
    let s := { s with head := ret + bytes }
    if s.head > s.tail then some (none, s) else some (some ret, s)

/-- `deallocate`, lines 315-321: whether it returns normally. -/
def Stack.deallocate (s : Stack) (p : BitVec 64) : Bool × Stack :=
  if p ≥ s.head then (false, s) else if p < s.data then (false, s) else (true, { s with head := p })

/-- `reset`, Allocator.h. -/
def Stack.reset (s : Stack) : Stack := { s with head := s.data }

/-! ## `handle_resource`; lines 249-290 -/

/-- Calls of the upstream resource: address, size, alignment. -/
inductive Up where
  | alloc (p n a : BitVec 64)
  | free (p n a : BitVec 64)
deriving DecidableEq

/-- `_bufSize`, `_align` (uninitialised at first), `_handle`, `_head`, and the upstream calls, latest first. -/
structure Handle where
  buf : BitVec 64
  align : Option (BitVec 64)
  handle : BitVec 64
  head : BitVec 64
  log : List Up

def Handle.make (initSize : BitVec 64) : Handle := { buf := initSize, align := none, handle := 0, head := 0, log := [] }

/-- Lines 262-267; `a` is what the upstream resource returns. -/
def Handle.first (h : Handle) (a alignment : BitVec 64) : Handle :=
  if h.handle = 0 then
    { h with handle := a, head := a, align := some alignment, log := .alloc a h.buf alignment :: h.log }
  else h

/-- `do_allocate`, lines 261-283; `a`, `b` are what the upstream resource returns to the two calls. -/
def Handle.allocate (h : Handle) (a b bytes alignment : BitVec 64) : Option (BitVec 64 × Handle) :=
  if alignment = 0 then none
  else
    let h := h.first a alignment
    let ret := alignUp h.head alignment
    let h := { h with head := ret + bytes }
    if h.head < h.handle + h.buf then some (ret, h)
    else
      let log := .free h.handle h.buf alignment :: h.log
      let offset := ret - h.handle
      let buf := (h.head - h.handle) <<< 1
      let ret := b + offset
      some (ret, { buf, align := some alignment, handle := b, head := ret + bytes, log := .alloc b buf alignment :: log })

/-- `acquire`, Allocator.h: the offset of the block. -/
def Handle.acquire (h : Handle) (a b bytes alignment : BitVec 64) : Option (BitVec 64 × Handle) :=
  match h.allocate a b bytes alignment with
  | none => none
  | some (ret, h) => some (ret - h.handle, h)

/-- `do_deallocate`, lines 284-290: whether it returns normally. -/
def Handle.deallocate (h : Handle) (p : BitVec 64) : Bool × Handle :=
  if p ≥ h.head then (false, h) else if p < h.handle then (false, h) else (true, { h with head := p })

/-- The destructor, lines 255-259. -/
def Handle.destroy (h : Handle) : Option (List Up) :=
  match h.align with
  | none => none
  | some a => some (.free h.handle h.buf a :: h.log)

/-! ## Virtual memory -/

/-- `vmr_t::s_chunk_granularity`, MemoryResource.h. -/
def chunk : BitVec 64 := BitVec.twoPow 64 21

/-- The pages with the chunks from `st` up to `ed` get the protection `b`. -/
def protect (prot : Nat → Bool) (st ed : Nat) (b : Bool) : Nat → Bool := fun c => if st ≤ c ∧ c < ed then b else prot c

/-- `arena_virtual_memory_resource`: `_reservedSpace`, `_activeChunkMasks` with its size, and the pages. -/
structure Arena where
  reserved : BitVec 64
  size : Nat
  mask : Nat → BitVec 64
  prot : Nat → Bool

/-- The constructor, lines 101-114. -/
def Arena.make (space : BitVec 64) : Arena :=
  let reserved := roundUp space chunk
  { reserved, size := ((reserved / chunk + 63) / 64).toNat, mask := fun _ => 0, prot := fun _ => false }

/-- `offset <= _reservedSpace ? round_up(offset, s_chunk_granularity) : _reservedSpace` -/
def endUp (reserved off : BitVec 64) : BitVec 64 := if off ≤ reserved then roundUp off chunk else reserved

/-- The loop of lines 126-127. -/
def Arena.scan (a : Arena) (ed : BitVec 64) : Nat → BitVec 64 → Option Bool
  | 0, _ => none
  | fuel + 1, st =>
    if st = ed then some true
    else if (st >>> 6).toNat ≥ a.size then none
    else if a.mask (st >>> 6).toNat &&& (1#64 <<< (st &&& 63)) = 0 then some false
    else a.scan ed fuel (st + 1)

/-- Apply `f` to the word and bit of every chunk from `st` to `ed`; the loops of lines 137-138, 152-153. -/
def Arena.update (f : BitVec 64 → BitVec 64 → BitVec 64) (size : Nat) (ed : BitVec 64) :
    Nat → BitVec 64 → (Nat → BitVec 64) → Option (Nat → BitVec 64)
  | 0, _, _ => none
  | fuel + 1, st, mask =>
    if st = ed then some mask
    else if (st >>> 6).toNat ≥ size then none
    else
      Arena.update f size ed fuel (st + 1)
        (fun j => if j = (st >>> 6).toNat then f (mask j) (1#64 <<< (st &&& 63)) else mask j)

/-- Iterations that suffice: after `64 * size` chunks the index leaves the vector. -/
def Arena.fuel (a : Arena) : Nat := 64 * a.size + 1

/-- `do_check_residency`, lines 120-129. -/
def Arena.check (a : Arena) (offset bytes : BitVec 64) : Option Bool :=
  let st := roundDown offset chunk
  if st ≥ a.reserved then some false
  else a.scan (endUp a.reserved (offset + bytes) >>> 21) a.fuel (st >>> 21)

/-- `do_commit`, lines 130-142; `mprotect` fails when `ok` is false or the length is negative. -/
def Arena.commit (a : Arena) (ok : Bool) (offset bytes : BitVec 64) : Option (Bool × Arena) :=
  let st := roundDown offset chunk
  if st ≥ a.reserved then some (false, a)
  else
    let ed := endUp a.reserved (offset + bytes)
    if ok && decide (st ≤ ed) then
      let prot := protect a.prot (st >>> 21).toNat (ed >>> 21).toNat true
      match Arena.update (fun w b => w ||| b) a.size (ed >>> 21) a.fuel (st >>> 21) a.mask with
      | none => none
      | some mask => some (true, { a with mask, prot })
    else some (false, a)

/-- `do_evict`, lines 144-155; `ok` is whether `madvise` and `mprotect` succeed. -/
def Arena.evict (a : Arena) (ok : Bool) (offset bytes : BitVec 64) : Option (Bool × Arena) :=
  let st := roundUp offset chunk
  let off := offset + bytes
  let ed := if off ≤ a.reserved then roundDown off chunk else a.reserved
  if st ≥ ed then some (false, a)
  else if ok then
    let prot := protect a.prot (st >>> 21).toNat (ed >>> 21).toNat false
    match Arena.update (fun w b => w &&& ~~~b) a.size (ed >>> 21) a.fuel (st >>> 21) a.mask with
    | none => none
    | some mask => some (true, { a with mask, prot })
  else some (false, a)

/-- `stack_virtual_memory_resource`: `_allocatedSpace`, `_reservedSpace`, and the pages. -/
structure StackVm where
  allocated : BitVec 64
  reserved : BitVec 64
  prot : Nat → Bool

/-- The constructor, lines 158-188. -/
def StackVm.make (size : BitVec 64) : StackVm := { allocated := 0, reserved := roundUp size chunk, prot := fun _ => false }

/-- `do_check_residency`, lines 202-207. -/
def StackVm.check (s : StackVm) (offset bytes : BitVec 64) : Bool := endUp s.reserved (offset + bytes) ≤ s.allocated

/-- `do_commit`, lines 208-221. -/
def StackVm.commit (s : StackVm) (ok : Bool) (offset bytes : BitVec 64) : Bool × StackVm :=
  let ed := endUp s.reserved (offset + bytes)
  if ed < s.allocated then (true, s)
  else if ok then (true, { s with allocated := ed, prot := protect s.prot 0 (ed >>> 21).toNat true })
  else (false, s)

/-- `do_evict`, lines 223-241. -/
def StackVm.evict (s : StackVm) (ok : Bool) (offset _bytes : BitVec 64) : Bool × StackVm :=
  let st := roundUp offset chunk
  if st ≥ s.allocated then (true, s)
  else if ok then
    (true, { s with allocated := st, prot := protect s.prot (st >>> 21).toNat (s.allocated >>> 21).toNat false })
  else (false, s)

end Verif.Memory
