import Verif.Model.Memory

/-!
Stack allocator and growing buffer: helper lemmas.
-/
namespace Verif.Memory

theorem alignUp_toNat {h a : BitVec 64} (ha : a ≠ 0) (hw : h.toNat + a.toNat ≤ 2 ^ 64) :
    (alignUp h a).toNat = (h.toNat + a.toNat - 1) - (h.toNat + a.toNat - 1) % a.toNat := by
  have ha : 0 < a.toNat := by
    refine Nat.pos_of_ne_zero fun e => ha ?_
    exact BitVec.eq_of_toNat_eq e
  have hx : (h + a - 1).toNat = h.toNat + a.toNat - 1 := by
    have : (1 : BitVec 64).toNat = 1 := rfl
    have := h.isLt; have := a.isLt
    rw [BitVec.toNat_sub, BitVec.toNat_add]
    omega
  have hm : ((h + a - 1) % a).toNat = (h.toNat + a.toNat - 1) % a.toNat := by rw [BitVec.toNat_umod, hx]
  have := Nat.mod_le (h.toNat + a.toNat - 1) a.toNat
  have h64 := (h + a - 1).isLt
  unfold alignUp
  rw [BitVec.toNat_sub, hm, hx]
  omega

/-- `alignUp` is the least multiple that is not below. -/
theorem alignUp_spec {h a : BitVec 64} (ha : a ≠ 0) (hw : h.toNat + a.toNat ≤ 2 ^ 64) :
    (alignUp h a).toNat % a.toNat = 0 ∧ h.toNat ≤ (alignUp h a).toNat ∧ (alignUp h a).toNat < h.toNat + a.toNat ∧
      ∀ q, q % a.toNat = 0 → h.toNat ≤ q → (alignUp h a).toNat ≤ q := by
  have hp : 0 < a.toNat := Nat.pos_of_ne_zero fun e => ha (BitVec.eq_of_toNat_eq e)
  rw [alignUp_toNat ha hw]
  generalize a.toNat = A at hp
  generalize h.toNat = H
  have hd := Nat.div_add_mod (H + A - 1) A
  have hl := Nat.mod_lt (H + A - 1) hp
  have e : H + A - 1 - (H + A - 1) % A = A * ((H + A - 1) / A) := by omega
  refine ⟨by rw [e]; exact Nat.mul_mod_right _ _, by omega, by omega, ?_⟩
  intro q hq hle
  rw [e]
  obtain ⟨c, rfl⟩ := Nat.dvd_of_mod_eq_zero hq
  refine Nat.mul_le_mul_left A ?_
  rw [← Nat.lt_succ_iff, Nat.div_lt_iff_lt_mul hp, Nat.succ_mul, Nat.mul_comm]
  omega

/-! ## Stack allocator -/

/-- The calls made on a stack allocator, with the live blocks (address and size, latest first). `free` is
applied to the latest block. -/
inductive Stack.Hist (s0 : Stack) : Stack → List (Nat × Nat) → Prop
  | start : Hist s0 s0 []
  | alloc {s s' live p} (h : Hist s0 s live) (n : BitVec 64) (hw : s.head.toNat + s.align.toNat + n.toNat ≤ 2 ^ 64)
      (e : s.allocate n = some (some p, s')) : Hist s0 s' ((p.toNat, n.toNat) :: live)
  | fail {s s' live} (h : Hist s0 s live) (n : BitVec 64) (hw : s.head.toNat + s.align.toNat + n.toNat ≤ 2 ^ 64)
      (e : s.allocate n = some (none, s')) : Hist s0 s' live
  | free {s s' live p n} (h : Hist s0 s ((p, n) :: live)) (e : s.deallocate (BitVec.ofNat 64 p) = (true, s')) : Hist s0 s' live
  | refuse {s s' live p n} (h : Hist s0 s ((p, n) :: live)) (e : s.deallocate (BitVec.ofNat 64 p) = (false, s')) :
    Hist s0 s' ((p, n) :: live)
  | reset {s live} (h : Hist s0 s live) : Hist s0 s.reset []

structure Stack.Inv (s0 s : Stack) (live : List (Nat × Nat)) : Prop where
  data : s.data = s0.data
  tail : s.tail = s0.tail
  align : s.align = s0.align
  head : s.data.toNat ≤ s.head.toNat
  block : ∀ b ∈ live, b.1 % s0.align.toNat = 0 ∧ s0.data.toNat ≤ b.1 ∧ b.1 + b.2 ≤ s0.tail.toNat ∧ b.1 + b.2 ≤ s.head.toNat
  disj : live.Pairwise fun x y => y.1 + y.2 ≤ x.1

theorem Stack.allocate_eq {s s' : Stack} {n : BitVec 64} {r : Option (BitVec 64)} (e : s.allocate n = some (r, s')) :
    s.align ≠ 0 ∧ s' = { s with head := alignUp s.head s.align + n } ∧
      ((r = none ∧ s.tail < alignUp s.head s.align + n) ∨ (r = some (alignUp s.head s.align) ∧ alignUp s.head s.align + n ≤ s.tail)) := by
  unfold Stack.allocate at e
  split at e
  · cases e
  · next h =>
    simp only at e
    split at e
    · next h' => cases e; exact ⟨h, rfl, .inl ⟨rfl, h'⟩⟩
    · next h' => cases e; exact ⟨h, rfl, .inr ⟨rfl, BitVec.not_lt.1 h'⟩⟩

theorem add_toNat {x y : BitVec 64} (h : x.toNat + y.toNat < 2 ^ 64) : (x + y).toNat = x.toNat + y.toNat := by
  rw [BitVec.toNat_add, Nat.mod_eq_of_lt h]

theorem Stack.Hist.inv {s0 s : Stack} {live : List (Nat × Nat)} (h0 : s0.data = s0.head) (h : Stack.Hist s0 s live) :
    Stack.Inv s0 s live := by
  induction h with
  | start => exact ⟨rfl, rfl, rfl, by rw [h0]; exact Nat.le_refl _, by simp, List.Pairwise.nil⟩
  | @alloc s s' live p h n hw e ih =>
    obtain ⟨ha, rfl, hr⟩ := Stack.allocate_eq e
    rcases hr with ⟨hr, -⟩ | ⟨hr, hle⟩
    · cases hr
    cases hr
    obtain ⟨a1, a2, a3, -⟩ := alignUp_spec ha (by omega : s.head.toNat + s.align.toNat ≤ 2 ^ 64)
    have hadd := add_toNat (x := alignUp s.head s.align) (y := n) (by omega)
    have hle : (alignUp s.head s.align + n).toNat ≤ s.tail.toNat := hle
    have hh := ih.head
    refine ⟨ih.data, ih.tail, ih.align, ?_, ?_, ?_⟩
    · show s.data.toNat ≤ (alignUp s.head s.align + n).toNat; omega
    · intro b hb
      show _ ∧ _ ∧ _ ∧ b.1 + b.2 ≤ (alignUp s.head s.align + n).toNat
      rcases List.mem_cons.1 hb with rfl | hb
      · rw [← ih.align, ← ih.data, ← ih.tail]
        exact ⟨a1, by show _ ≤ (alignUp s.head s.align).toNat; omega, by
          show (alignUp s.head s.align).toNat + n.toNat ≤ _; omega, by
          show (alignUp s.head s.align).toNat + n.toNat ≤ _; omega⟩
      · obtain ⟨b1, b2, b3, b4⟩ := ih.block b hb
        exact ⟨b1, b2, b3, by omega⟩
    · refine List.pairwise_cons.2 ⟨fun b hb => ?_, ih.disj⟩
      have := (ih.block b hb).2.2.2
      show b.1 + b.2 ≤ (alignUp s.head s.align).toNat
      omega
  | @fail s s' live h n hw e ih =>
    obtain ⟨ha, rfl, -⟩ := Stack.allocate_eq e
    obtain ⟨a1, a2, a3, -⟩ := alignUp_spec ha (by omega : s.head.toNat + s.align.toNat ≤ 2 ^ 64)
    have hadd := add_toNat (x := alignUp s.head s.align) (y := n) (by omega)
    have hh := ih.head
    refine ⟨ih.data, ih.tail, ih.align, ?_, ?_, ih.disj⟩
    · show s.data.toNat ≤ (alignUp s.head s.align + n).toNat; omega
    · intro b hb
      obtain ⟨b1, b2, b3, b4⟩ := ih.block b hb
      exact ⟨b1, b2, b3, by show _ ≤ (alignUp s.head s.align + n).toNat; omega⟩
  | @free s s' live p n h e ih =>
    unfold Stack.deallocate at e
    split at e
    · cases e
    split at e
    · cases e
    next h1 h2 =>
    cases e
    have hb := ih.block (p, n) List.mem_cons_self
    have hp : p % 2 ^ 64 = p := Nat.mod_eq_of_lt (by
      have h1 : p + n ≤ s.head.toNat := hb.2.2.2
      have := s.head.isLt; omega)
    have hd := List.pairwise_cons.1 ih.disj
    have e : (BitVec.ofNat 64 p).toNat = p := by rw [BitVec.toNat_ofNat, hp]
    refine ⟨ih.data, ih.tail, ih.align, ?_, ?_, hd.2⟩
    · show s.data.toNat ≤ (BitVec.ofNat 64 p).toNat
      rw [e, ih.data]; exact hb.2.1
    · intro b hb'
      obtain ⟨b1, b2, b3, b4⟩ := ih.block b (List.mem_cons_of_mem _ hb')
      refine ⟨b1, b2, b3, ?_⟩
      show b.1 + b.2 ≤ (BitVec.ofNat 64 p).toNat
      rw [e]; exact hd.1 b hb'
  | @refuse s s' live p n h e ih =>
    unfold Stack.deallocate at e
    split at e
    · cases e; exact ih
    split at e
    · cases e; exact ih
    · cases e
  | @reset s live h ih =>
    exact ⟨ih.data, ih.tail, ih.align, Nat.le_refl _, by simp, List.Pairwise.nil⟩

/-! ## Growing buffer -/

/-- The calls made on a growing buffer with alignment `A`, with the live blocks (offset and size, latest
first). The upstream resource returns non-null aligned addresses, and nothing wraps around. -/
inductive Handle.Hist (init A : BitVec 64) : Handle → List (Nat × Nat) → Prop
  | start : Hist init A (Handle.make init) []
  | alloc {h h' live o} (hh : Hist init A h live) (a b n : BitVec 64) (ha : a.toNat % A.toNat = 0) (ha0 : a ≠ 0)
      (hb : b.toNat % A.toNat = 0) (hb0 : b ≠ 0)
      (wa : a.toNat + h.buf.toNat + A.toNat + n.toNat < 2 ^ 64)
      (wb : b.toNat + 2 * (A.toNat + n.toNat + (h.head.toNat - h.handle.toNat)) < 2 ^ 64)
      (wh : h.head.toNat + A.toNat + n.toNat < 2 ^ 64)
      (e : h.acquire a b n A = some (o, h')) : Hist init A h' ((o.toNat, n.toNat) :: live)
  | free {h h' live o n} (hh : Hist init A h ((o, n) :: live)) (e : h.deallocate (h.handle + BitVec.ofNat 64 o) = (true, h')) :
    Hist init A h' live
  | refuse {h h' live o n} (hh : Hist init A h ((o, n) :: live)) (e : h.deallocate (h.handle + BitVec.ofNat 64 o) = (false, h')) :
    Hist init A h' ((o, n) :: live)

/-- Upstream calls (latest first) in which every block is returned as it was obtained, before the next one
is requested. -/
inductive Balanced : List Up → Prop
  | nil : Balanced []
  | pair (p n a : BitVec 64) {l : List Up} (h : Balanced l) : Balanced (.free p n a :: .alloc p n a :: l)

structure Handle.Inv (A : BitVec 64) (h : Handle) (live : List (Nat × Nat)) : Prop where
  align : h.handle.toNat % A.toNat = 0
  head : h.handle.toNat ≤ h.head.toNat
  fit : h.head.toNat ≤ h.handle.toNat + h.buf.toNat
  wrap : h.handle.toNat + h.buf.toNat < 2 ^ 64
  block : ∀ b ∈ live, b.1 % A.toNat = 0 ∧ h.handle.toNat + b.1 + b.2 ≤ h.head.toNat
  disj : live.Pairwise fun x y => y.1 + y.2 ≤ x.1
  log : (h.handle = 0 ∧ h.log = [] ∧ h.align = none ∧ live = []) ∨
    (h.handle ≠ 0 ∧ h.align = some A ∧ ∃ l, h.log = .alloc h.handle h.buf A :: l ∧ Balanced l)

theorem sub_toNat {x y : BitVec 64} (h : y.toNat ≤ x.toNat) : (x - y).toNat = x.toNat - y.toNat := by
  have := x.isLt
  rw [BitVec.toNat_sub]
  omega

theorem Handle.first_inv {A : BitVec 64} {h : Handle} {live : List (Nat × Nat)} {a : BitVec 64} (hi : Handle.Inv A h live)
    (ha : a.toNat % A.toNat = 0) (ha0 : a ≠ 0) (wa : a.toNat + h.buf.toNat < 2 ^ 64) :
    Handle.Inv A (h.first a A) live ∧ (h.first a A).handle ≠ 0 ∧
      (h.first a A).head.toNat - (h.first a A).handle.toNat ≤ h.head.toNat - h.handle.toNat ∧
      ((h.first a A).head = a ∨ (h.first a A).head = h.head) := by
  unfold Handle.first
  by_cases e : h.handle = 0
  · rw [if_pos e]
    rcases hi.log with ⟨-, h2, h3, rfl⟩ | ⟨h1, -⟩
    · refine ⟨⟨ha, Nat.le_refl _, Nat.le_add_right _ _, wa, by simp, List.Pairwise.nil, .inr ⟨ha0, rfl, [], ?_, .nil⟩⟩, ha0, ?_, .inl rfl⟩
      · show _ :: h.log = _
        rw [h2]
      · show a.toNat - a.toNat ≤ _; omega
    · exact absurd e h1
  · rw [if_neg e]
    exact ⟨hi, e, Nat.le_refl _, .inr rfl⟩

theorem Handle.Hist.inv {init A : BitVec 64} (hA : A ≠ 0) {h : Handle} {live : List (Nat × Nat)} (hh : Handle.Hist init A h live) :
    Handle.Inv A h live := by
  have hp : 0 < A.toNat := Nat.pos_of_ne_zero fun e => hA (BitVec.eq_of_toNat_eq e)
  induction hh with
  | start =>
    refine ⟨Nat.zero_mod _, Nat.le_refl _, Nat.zero_le _, ?_, by simp, List.Pairwise.nil, .inl ⟨rfl, rfl, rfl, rfl⟩⟩
    show (0 : BitVec 64).toNat + init.toNat < 2 ^ 64
    have := init.isLt
    rw [show (0 : BitVec 64).toNat = 0 from rfl]
    omega
  | @alloc h h' live o hh a b n ha ha0 hb hb0 wa wb wh e ih =>
    obtain ⟨i1, i2, i3, i4⟩ := Handle.first_inv ih ha ha0 (by omega)
    unfold Handle.acquire Handle.allocate at e
    rw [if_neg hA] at e
    have hb' : (h.first a A).buf = h.buf := by unfold Handle.first; split <;> rfl
    generalize h.first a A = f at *
    have hbig : f.head.toNat + A.toNat + n.toNat < 2 ^ 64 := by
      rcases i4 with e | e
      · rw [e]; omega
      · rw [e]; omega
    obtain ⟨a1, a2, a3, -⟩ := alignUp_spec hA (by omega : f.head.toNat + A.toNat ≤ 2 ^ 64)
    simp only at e
    generalize alignUp f.head A = r at *
    have hadd := add_toNat (x := r) (y := n) (by omega)
    have hhead := i1.head
    have hsub := sub_toNat (x := r) (y := f.handle) (by omega)
    have hsub' := sub_toNat (x := r + n) (y := f.handle) (by omega)
    have hw := i1.wrap
    have hend := add_toNat (x := f.handle) (y := f.buf) hw
    have hmod : (r.toNat - f.handle.toNat) % A.toNat = 0 := by
      obtain ⟨x, hx⟩ := Nat.dvd_of_mod_eq_zero a1
      obtain ⟨y, hy⟩ := Nat.dvd_of_mod_eq_zero i1.align
      rw [hx, hy, ← Nat.mul_sub]
      exact Nat.mul_mod_right _ _
    by_cases hlt : r + n < f.handle + f.buf
    · rw [if_pos hlt] at e
      simp only [Option.some.injEq, Prod.mk.injEq] at e
      obtain ⟨rfl, rfl⟩ := e
      have hlt : (r + n).toNat < (f.handle + f.buf).toNat := hlt
      refine ⟨i1.align, ?_, ?_, i1.wrap, ?_, ?_, ?_⟩
      · show f.handle.toNat ≤ (r + n).toNat; omega
      · show (r + n).toNat ≤ f.handle.toNat + f.buf.toNat; omega
      · intro x hx
        show _ ∧ f.handle.toNat + x.1 + x.2 ≤ (r + n).toNat
        rcases List.mem_cons.1 hx with rfl | hx
        · refine ⟨?_, ?_⟩
          · show (r - f.handle).toNat % _ = 0; rw [hsub]; exact hmod
          · show f.handle.toNat + (r - f.handle).toNat + n.toNat ≤ (r + n).toNat; omega
        · obtain ⟨b1, b2⟩ := i1.block x hx
          exact ⟨b1, by omega⟩
      · refine List.pairwise_cons.2 ⟨fun x hx => ?_, i1.disj⟩
        have := (i1.block x hx).2
        show x.1 + x.2 ≤ (r - f.handle).toNat
        omega
      · rcases i1.log with ⟨h1, -⟩ | h1
        · exact absurd h1 i2
        · exact .inr h1
    · rw [if_neg hlt] at e
      simp only [Option.some.injEq, Prod.mk.injEq] at e
      obtain ⟨rfl, rfl⟩ := e
      have hshift : ((r + n - f.handle) <<< 1).toNat = 2 * (r.toNat + n.toNat - f.handle.toNat) := by
        rw [BitVec.toNat_shiftLeft, hsub', hadd, Nat.shiftLeft_eq, Nat.mod_eq_of_lt (by omega)]
        omega
      have hret := add_toNat (x := b) (y := r - f.handle) (by omega)
      have hhd := add_toNat (x := b + (r - f.handle)) (y := n) (by omega)
      have hoff : b + (r - f.handle) - b = r - f.handle := by
        apply BitVec.eq_of_toNat_eq
        rw [sub_toNat (by omega)]; omega
      rw [hoff]
      refine ⟨hb, ?_, ?_, ?_, ?_, ?_, ?_⟩
      · show b.toNat ≤ (b + (r - f.handle) + n).toNat; omega
      · show (b + (r - f.handle) + n).toNat ≤ b.toNat + ((r + n - f.handle) <<< 1).toNat; omega
      · show b.toNat + ((r + n - f.handle) <<< 1).toNat < 2 ^ 64; omega
      · intro x hx
        show _ ∧ b.toNat + x.1 + x.2 ≤ (b + (r - f.handle) + n).toNat
        rcases List.mem_cons.1 hx with rfl | hx
        · refine ⟨?_, ?_⟩
          · show (r - f.handle).toNat % _ = 0; rw [hsub]; exact hmod
          · show b.toNat + (r - f.handle).toNat + n.toNat ≤ (b + (r - f.handle) + n).toNat; omega
        · obtain ⟨b1, b2⟩ := i1.block x hx
          exact ⟨b1, by omega⟩
      · refine List.pairwise_cons.2 ⟨fun x hx => ?_, i1.disj⟩
        have := (i1.block x hx).2
        show x.1 + x.2 ≤ (r - f.handle).toNat
        omega
      · rcases i1.log with ⟨h1, -⟩ | ⟨-, h1, l, h2, h3⟩
        · exact absurd h1 i2
        · refine .inr ⟨hb0, rfl, _, rfl, ?_⟩
          show Balanced (.free f.handle f.buf A :: f.log)
          rw [h2]
          exact .pair _ _ _ h3
  | @free h h' live o n hh e ih =>
    unfold Handle.deallocate at e
    split at e
    · cases e
    split at e
    · cases e
    next h1 h2 =>
    cases e
    have hb := ih.block (o, n) List.mem_cons_self
    have hb2 : h.handle.toNat + o + n ≤ h.head.toNat := hb.2
    have hd := List.pairwise_cons.1 ih.disj
    have hlt := h.head.isLt
    have eo : (BitVec.ofNat 64 o).toNat = o := by rw [BitVec.toNat_ofNat, Nat.mod_eq_of_lt (by omega)]
    have e := add_toNat (x := h.handle) (y := BitVec.ofNat 64 o) (by omega)
    have hf := ih.fit
    refine ⟨ih.align, ?_, ?_, ih.wrap, ?_, hd.2, ?_⟩
    · show h.handle.toNat ≤ (h.handle + BitVec.ofNat 64 o).toNat; omega
    · show (h.handle + BitVec.ofNat 64 o).toNat ≤ h.handle.toNat + h.buf.toNat; omega
    · intro x hx
      refine ⟨(ih.block x (List.mem_cons_of_mem _ hx)).1, ?_⟩
      have : x.1 + x.2 ≤ o := hd.1 x hx
      show h.handle.toNat + x.1 + x.2 ≤ (h.handle + BitVec.ofNat 64 o).toNat
      omega
    · rcases ih.log with ⟨_, _, _, h4⟩ | h4
      · cases h4
      · exact .inr h4
  | @refuse h h' live o n hh e ih =>
    unfold Handle.deallocate at e
    split at e
    · cases e; exact ih
    split at e
    · cases e; exact ih
    · cases e

end Verif.Memory
