import Verif.Proof.MemoryVm

/-!
C53: `stack_allocator`. C54: `handle_resource`. C55: virtual memory resources.
-/
namespace Verif.Memory
open Verif.Bits

/-! ## C53 -/

/-- Under last-in-first-out use the live blocks are aligned, inside the buffer, and disjoint. Missing: sizes
for which addresses wrap around (`stack_wrap_violated`). -/
theorem stack_blocks_partial {addr total align : BitVec 64} (hw : addr.toNat + total.toNat < 2 ^ 64) {s : Stack} {live : List (Nat × Nat)}
    (h : Stack.Hist (Stack.make addr total align) s live) :
    (∀ b ∈ live, b.1 % align.toNat = 0 ∧ addr.toNat ≤ b.1 ∧ b.1 + b.2 ≤ addr.toNat + total.toNat) ∧
      live.Pairwise fun x y => y.1 + y.2 ≤ x.1 := by
  have hi := h.inv rfl
  refine ⟨fun b hb => ?_, hi.disj⟩
  obtain ⟨h1, h2, h3, -⟩ := hi.block b hb
  have e : (addr + total).toNat = addr.toNat + total.toNat := add_toNat hw
  exact ⟨h1, h2, by rw [← e]; exact h3⟩

/-- An allocation succeeds exactly when an aligned block of that size fits between the current end and the
end of the buffer, and it returns the lowest such block. -/
theorem stack_first_fit {s : Stack} {n : BitVec 64} (ha : s.align ≠ 0) (hw : s.head.toNat + s.align.toNat + n.toNat ≤ 2 ^ 64) :
    ∃ r s', s.allocate n = some (r, s') ∧
      (r = none → ∀ q, q % s.align.toNat = 0 → s.head.toNat ≤ q → s.tail.toNat < q + n.toNat) ∧
      ∀ p, r = some p → p.toNat % s.align.toNat = 0 ∧ s.head.toNat ≤ p.toNat ∧ p.toNat + n.toNat ≤ s.tail.toNat ∧
        s'.head.toNat = p.toNat + n.toNat ∧ ∀ q, q % s.align.toNat = 0 → s.head.toNat ≤ q → p.toNat ≤ q := by
  obtain ⟨a1, a2, a3, a4⟩ := alignUp_spec ha (by omega : s.head.toNat + s.align.toNat ≤ 2 ^ 64)
  have hadd := add_toNat (x := alignUp s.head s.align) (y := n) (by omega)
  have : ∃ r s', s.allocate n = some (r, s') := by
    unfold Stack.allocate
    rw [if_neg ha]
    simp only
    split <;> exact ⟨_, _, rfl⟩
  obtain ⟨r, s', e⟩ := this
  obtain ⟨-, rfl, hr⟩ := Stack.allocate_eq e
  refine ⟨r, _, e, ?_, ?_⟩
  · intro hn q hq hle
    rcases hr with ⟨-, hlt⟩ | ⟨hr, -⟩
    · have hlt : s.tail.toNat < (alignUp s.head s.align + n).toNat := hlt
      have := a4 q hq hle
      omega
    · rw [hn] at hr; cases hr
  · intro p hp
    rcases hr with ⟨hr, -⟩ | ⟨hr, hle⟩
    · rw [hp] at hr; cases hr
    · rw [hp] at hr; cases hr
      have hle : (alignUp s.head s.align + n).toNat ≤ s.tail.toNat := hle
      exact ⟨a1, a2, by omega, hadd, a4⟩

/-- Freeing the latest block succeeds if it is not empty, and makes its address the next one to be handed
out. -/
theorem stack_free {addr total align : BitVec 64} {s : Stack} {live : List (Nat × Nat)} {p n : Nat}
    (h : Stack.Hist (Stack.make addr total align) s ((p, n) :: live)) (hn : 0 < n) :
    ∃ s', s.deallocate (BitVec.ofNat 64 p) = (true, s') ∧ s'.head.toNat = p := by
  obtain ⟨h1, h2, h3, h4⟩ := (h.inv rfl).block (p, n) List.mem_cons_self
  have h4 : p + n ≤ s.head.toNat := h4
  have hlt := s.head.isLt
  have e : (BitVec.ofNat 64 p).toNat = p := by rw [BitVec.toNat_ofNat, Nat.mod_eq_of_lt (by omega)]
  unfold Stack.deallocate
  have n1 : ¬ s.head.toNat ≤ (BitVec.ofNat 64 p).toNat := by rw [e]; omega
  have n2 : ¬ (BitVec.ofNat 64 p).toNat < s.data.toNat := by rw [e, (h.inv rfl).data]; exact Nat.not_lt.2 h2
  rw [if_neg (show ¬ BitVec.ofNat 64 p ≥ s.head from n1), if_neg (show ¬ BitVec.ofNat 64 p < s.data from n2)]
  exact ⟨_, rfl, e⟩

/-- After a failed allocation a request that fitted before is refused too. -/
theorem stack_failed_violated :
    let s := Stack.make 0x1000 64 8
    (s.allocate 8).map Prod.fst = some (some 0x1000) ∧
      ((s.allocate 100).bind fun r => (r.2.allocate 8).map Prod.fst) = some none := by decide

/-- A huge request wraps around and is granted; the next block lies before the buffer. -/
theorem stack_wrap_violated :
    let s := Stack.make 0x1000 64 8
    (s.allocate (0xfffffffffffffff8)).map Prod.fst = some (some 0x1000) ∧
      ((s.allocate (0xfffffffffffffff8)).bind fun r => (r.2.allocate 8).map Prod.fst) = some (some 0xff8) := by decide

/-- An empty block cannot be freed. -/
theorem stack_empty_violated :
    let s := Stack.make 0x1000 64 8
    ((s.allocate 0).map fun r => (r.1, (r.2.deallocate 0x1000).1)) = some (some 0x1000, false) := by decide

example : ∃ s, Stack.Hist (Stack.make 0x1004 64 8) s [(0x1010, 16), (0x1008, 3)] :=
  ⟨_, .alloc (p := 0x1010) (.alloc (p := 0x1008) .start 3 (by decide) rfl) 16 (by decide) rfl⟩

/-! ## C54 -/

/-- When all requests have one alignment, the live blocks, given by their offsets, are disjoint, inside the
current buffer, and aligned. Missing: addresses do not stay valid (`handle_moves_violated`), and requests
with different alignments (`handle_alignment_violated`). -/
theorem handle_offsets_partial {init A : BitVec 64} (hA : A ≠ 0) {h : Handle} {live : List (Nat × Nat)} (hh : Handle.Hist init A h live) :
    (∀ b ∈ live, (h.handle.toNat + b.1) % A.toNat = 0 ∧ b.1 + b.2 ≤ h.buf.toNat) ∧ live.Pairwise fun x y => y.1 + y.2 ≤ x.1 := by
  have hi := hh.inv hA
  refine ⟨fun b hb => ?_, hi.disj⟩
  obtain ⟨h1, h2⟩ := hi.block b hb
  have := hi.fit
  refine ⟨?_, by omega⟩
  rw [Nat.add_mod, hi.align, h1]
  simp

/-- With one alignment, every buffer is returned to the upstream resource as it was obtained. -/
theorem handle_upstream_partial {init A : BitVec 64} (hA : A ≠ 0) {h : Handle} {live : List (Nat × Nat)} (hh : Handle.Hist init A h live)
    (hu : h.handle ≠ 0) : ∃ log, h.destroy = some log ∧ Balanced log := by
  rcases (hh.inv hA).log with ⟨h1, -⟩ | ⟨-, h1, l, h2, h3⟩
  · exact absurd h1 hu
  · refine ⟨_, by unfold Handle.destroy; rw [h1], ?_⟩
    rw [h2]
    exact .pair _ _ _ h3

/-- Growth moves the buffer: the first block lies outside the buffer after the second request. -/
theorem handle_moves_violated :
    let h := Handle.make 64
    ((h.allocate 0x1000 0 32 8).bind fun r => (r.2.allocate 0 0x8000 64 8).map fun r' =>
      (r.1, decide (r'.2.handle.toNat ≤ r.1.toNat ∧ r.1.toNat < r'.2.handle.toNat + r'.2.buf.toNat))) = some (0x1000, false) := by decide

/-- Growth keeps the offset but not the alignment: a block requested with alignment 64. -/
theorem handle_alignment_violated :
    let h := Handle.make 64
    ((h.allocate 0x1008 0 8 8).bind fun r => (r.2.allocate 0 0x4000 64 64).map fun r' => r'.1.toNat % 64) = some 56 := by decide

/-- The old buffer is returned with the alignment of the new request. -/
theorem handle_upstream_violated :
    let h := Handle.make 64
    ((h.allocate 0x1008 0 8 8).bind fun r => (r.2.allocate 0 0x4000 64 64).map fun r' => r'.2.log) =
      some [.alloc 0x4000 240 64, .free 0x1008 64 64, .alloc 0x1008 64 8] := by decide

/-- Destroying an unused resource reads the uninitialised alignment. -/
theorem handle_unused_violated (init : BitVec 64) : (Handle.make init).destroy = none := rfl

example : ∃ h, Handle.Hist 64 8 h [(32, 64), (0, 32)] :=
  ⟨_, .alloc (o := 32) (.alloc (o := 0) .start 0x1000 0x1000 32 (by decide) (by decide) (by decide) (by decide) (by decide) (by decide)
    (by decide) rfl) 0x1000 0x8000 64 (by decide) (by decide) (by decide) (by decide) (by decide) (by decide) (by decide) rfl⟩

/-! ## C55 -/

/-- The pages of an arena are accessible exactly when the last successful call that concerns them was a
commit. Missing: ranges that wrap around (`arena_evict_wrap_violated`). -/
theorem arena_tracks_partial {space : BitVec 64} {a : Arena} {evs : List Ev} (h : Arena.Hist space a evs) :
    ∀ c < a.reserved.toNat / C, a.prot c = resident evs c := h.inv.2.2

/-- For a range inside the reserved space `check_residency` tells whether all its chunks are resident. Missing:
ranges that reach beyond it (`arena_check_beyond_violated`) or wrap around (`arena_check_wrap_violated`). -/
theorem arena_check_partial {space : BitVec 64} {a : Arena} {evs : List Ev} (h : Arena.Hist space a evs) (o n : BitVec 64)
    (ho : o.toNat < a.reserved.toNat) (hn : o.toNat + n.toNat ≤ a.reserved.toNat) :
    ∃ b, a.check o n = some b ∧
      (b = true ↔ ∀ c, c * C < o.toNat + n.toNat → o.toNat < (c + 1) * C → resident evs c = true) := by
  obtain ⟨i1, -, i3⟩ := h.inv
  have := a.reserved.isLt
  obtain ⟨b, b1, b2⟩ := Arena.check_ok i1 o n ho (by omega)
  refine ⟨b, b1, b2.trans ?_⟩
  have hr := i1.reserved
  constructor
  · intro hall c c1 c2
    have hc : c < a.reserved.toNat / C := by unfold C at *; omega
    rw [← i3 c hc]
    exact hall c hc c1 c2
  · intro hall c hc c1 c2
    rw [i3 c hc]
    exact hall c c1 c2

/-- After a successful commit of a range inside the reserved space the range is resident. -/
theorem arena_commit {space : BitVec 64} {a a' : Arena} {evs : List Ev} (h : Arena.Hist space a evs) (ok : Bool) (o n : BitVec 64)
    (hn : o.toNat + n.toNat ≤ a.reserved.toNat) (hw : o.toNat + n.toNat + C ≤ 2 ^ 64) (e : a.commit ok o n = some (true, a')) :
    a'.check o n = some true := by
  have h' : Arena.Hist space a' (.commit o n :: evs) := .commit (r := true) h ok o n hw e
  obtain ⟨r, a'', e1, -, e2, -, -, e3⟩ := Arena.commit_ok h.inv.1 ok o n
  rw [e] at e1
  simp only [Option.some.injEq, Prod.mk.injEq] at e1
  obtain ⟨rfl, rfl⟩ := e1
  have hr := h.inv.1.reserved
  have ho := (e3 rfl).1
  obtain ⟨b, b1, b2⟩ := arena_check_partial h' o n (by rw [e2]; unfold C at *; omega) (by rw [e2]; exact hn)
  rw [b1, b2.2]
  intro c c1 c2
  unfold resident
  rw [if_pos ⟨c1, c2⟩]

/-- `commit` and `evict` stay inside the mask vector for all arguments, and the mask agrees with the pages. -/
theorem arena_safe {a : Arena} (h : a.Inv) (ok : Bool) (o n : BitVec 64) :
    (∃ r a', a.commit ok o n = some (r, a') ∧ a'.Inv) ∧ ∃ r a', a.evict ok o n = some (r, a') ∧ a'.Inv := by
  obtain ⟨r, a', e, i, -⟩ := Arena.commit_ok h ok o n
  obtain ⟨r', a'', e', i', -⟩ := Arena.evict_ok h ok o n
  exact ⟨⟨r, a', e, i⟩, r', a'', e', i'⟩

/-- The mask is also read inside its bounds by `check_residency` of ranges that do not wrap around. -/
theorem arena_check_safe_partial {a : Arena} (h : a.Inv) (o n : BitVec 64) (hw : o.toNat + n.toNat < 2 ^ 64) :
    ∃ b, a.check o n = some b := by
  by_cases ho : o.toNat < a.reserved.toNat
  · obtain ⟨b, e, -⟩ := Arena.check_ok h o n ho hw
    exact ⟨b, e⟩
  · refine ⟨false, ?_⟩
    have hr := h.reserved
    have hst := roundDown_toNat o
    have hge : a.reserved.toNat ≤ (roundDown o chunk).toNat := by rw [hst]; unfold C at *; omega
    unfold Arena.check
    simp only
    rw [if_pos (show roundDown o chunk ≥ a.reserved from hge)]

/-- A range of two chunks is reported resident in an arena of one chunk. -/
theorem arena_check_beyond_violated :
    (((Arena.make 0x200000).commit true 0 0x200000).bind fun r => r.2.check 0 0x400000) = some true := by decide +kernel

/-- A range that wraps around makes `check_residency` read past the end of the mask vector. -/
theorem arena_check_wrap_violated :
    (((Arena.make 0x8000000).commit true 0 0x8000000).bind fun r => r.2.check 0x200000 0xffffffffffe00000) = none := by decide +kernel

/-- A range that wraps around makes `evict` remove chunk 0. -/
theorem arena_evict_wrap_violated :
    (((Arena.make 0x400000).commit true 0 0x400000).bind fun r =>
      (r.2.evict true 0xffffffffffffffff 0x200001).map fun r' => (r.2.prot 0, r'.1, r'.2.prot 0)) = some (true, true, false) := by
  decide +kernel

/-- In the stack resource the accessible pages are those below `_allocatedSpace`, whatever calls were made. -/
theorem stackvm_tracks {size : BitVec 64} {s : StackVm} (h : StackVm.Reach size s) (c : Nat) :
    s.prot c = true ↔ (c + 1) * C ≤ s.allocated.toNat := by
  have i := h.inv.1
  have := i.allocated
  rw [i.same c, decide_eq_true_iff]
  unfold C at *
  omega

/-- For a range inside the reserved space `check_residency` tells whether all chunks up to its end are
accessible. Missing: ranges beyond it (`stackvm_check_beyond_violated`) or that wrap around
(`stackvm_check_wrap_violated`). -/
theorem stackvm_check_partial {size : BitVec 64} {s : StackVm} (h : StackVm.Reach size s) (o n : BitVec 64)
    (hn : o.toNat + n.toNat ≤ s.reserved.toNat) :
    s.check o n = true ↔ ∀ c, c * C < o.toNat + n.toNat → s.prot c = true := by
  have i := h.inv.1
  have hlt := s.reserved.isLt
  obtain ⟨e1, e2⟩ := endUp_le (reserved := s.reserved) (off := o + n) i.reserved
  have ht := endUp_touch (reserved := s.reserved) (off := o + n) i.reserved
  rw [add_toNat (by omega)] at ht
  have hal := i.allocated
  have hr := i.reserved
  have hc : s.check o n = true ↔ (endUp s.reserved (o + n)).toNat ≤ s.allocated.toNat := by
    unfold StackVm.check; rw [decide_eq_true_iff]; exact Iff.rfl
  rw [hc]
  constructor
  · intro hle c hcl
    rw [i.same c, decide_eq_true_iff]
    have := (ht c (by unfold C at *; omega)).2 hcl
    unfold C at *; omega
  · intro hall
    refine Nat.not_lt.1 fun hlt => ?_
    have h1 : s.allocated.toNat / C < (endUp s.reserved (o + n)).toNat / C := by unfold C at *; omega
    have h2 := hall (s.allocated.toNat / C) ((ht _ (by unfold C at *; omega)).1 h1)
    rw [i.same, decide_eq_true_iff] at h2
    omega

/-- After a successful commit the range is resident. -/
theorem stackvm_commit {size : BitVec 64} {s : StackVm} (_ : StackVm.Reach size s) (ok : Bool) (o n : BitVec 64)
    (e : (s.commit ok o n).1 = true) : (s.commit ok o n).2.check o n = true := by
  unfold StackVm.commit at *
  simp only at *
  split at e
  · next hlt =>
    rw [if_pos hlt]
    have hlt : (endUp s.reserved (o + n)).toNat < s.allocated.toNat := hlt
    unfold StackVm.check
    rw [decide_eq_true_iff]
    exact Nat.le_of_lt hlt
  · next hlt =>
    rw [if_neg hlt]
    cases ok
    · simp at e
    · simp only [if_true]
      unfold StackVm.check
      rw [decide_eq_true_iff]
      exact Nat.le_refl _

/-- `evict` of chunk 0 also removes chunk 1. -/
theorem stackvm_evict_violated :
    let s := ((StackVm.make 0x400000).commit true 0 0x400000).2
    s.prot 1 = true ∧ (s.evict true 0 0x200000).2.prot 1 = false := by decide

/-- A range beyond the reserved space is reported resident. -/
theorem stackvm_check_beyond_violated :
    (((StackVm.make 0x200000).commit true 0 0x200000).2.check 0x200000 0x200000) = true := by decide

/-- A range that wraps around is reported resident although nothing was committed. -/
theorem stackvm_check_wrap_violated : ((StackVm.make 0x200000).check 0xffffffffffffffff 1) = true := by decide

example : ∃ a, Arena.Hist 0x500000 a [.evict 0x200000 0x200000, .commit 5 0x400000] := by
  obtain ⟨r, a, e1, -, -, -, h0, -⟩ := Arena.commit_ok (Arena.make_inv 0x500000) true 5 0x400000
  have hr : r = true := by
    have : ((Arena.make 0x500000).commit true 5 0x400000).map Prod.fst = some true := by decide +kernel
    rw [e1] at this; simpa using this
  subst hr
  have ha := Arena.Hist.commit (r := true) (.start (space := 0x500000)) true 5 0x400000 (by decide +kernel) e1
  obtain ⟨r', a', e2, -, -, -, -, -⟩ := Arena.evict_ok ha.inv.1 true 0x200000 0x200000
  have hr : r' = true := by
    have : (((Arena.make 0x500000).commit true 5 0x400000).bind fun r => (r.2.evict true 0x200000 0x200000).map Prod.fst) = some true := by
      decide +kernel
    rw [e1] at this
    simp only [Option.bind_some, e2, Option.map_some, Option.some.injEq] at this
    exact this
  subst hr
  exact ⟨a', Arena.Hist.evict (r := true) ha true 0x200000 0x200000 (by decide +kernel) e2⟩

end Verif.Memory
