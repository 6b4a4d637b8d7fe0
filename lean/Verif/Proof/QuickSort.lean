import Verif.Proof.MergeSort
namespace Verif.Sort
open Verif.Phase

variable {α : Type}

/-- `y` on `[a, b)` is a permutation of `x` on `[a, b)`. -/
def SegPerm (a b : Nat) (x y : Nat → α) : Prop :=
  ∃ pos : Nat → Nat,
    (∀ i, a ≤ i → i < b → a ≤ pos i ∧ pos i < b) ∧
    (∀ k, a ≤ k → k < b → ∃ i, a ≤ i ∧ i < b ∧ pos i = k) ∧
    (∀ i, a ≤ i → i < b → y (pos i) = x i)

theorem SegPerm.refl (a b : Nat) (x : Nat → α) : SegPerm a b x x :=
  ⟨id, fun _ h1 h2 => ⟨h1, h2⟩, fun k h1 h2 => ⟨k, h1, h2, rfl⟩, fun _ _ _ => rfl⟩

theorem SegPerm.trans {a b : Nat} {x y z : Nat → α} (h1 : SegPerm a b x y) (h2 : SegPerm a b y z) :
    SegPerm a b x z := by
  obtain ⟨p, p1, p2, p3⟩ := h1
  obtain ⟨q, q1, q2, q3⟩ := h2
  refine ⟨fun i => q (p i), fun i ha hb => q1 _ (p1 i ha hb).1 (p1 i ha hb).2, fun k ha hb => ?_,
    fun i ha hb => ?_⟩
  · obtain ⟨c, c1, c2, rfl⟩ := q2 k ha hb
    obtain ⟨i, i1, i2, rfl⟩ := p2 c c1 c2
    exact ⟨i, i1, i2, rfl⟩
  · rw [q3 _ (p1 i ha hb).1 (p1 i ha hb).2, p3 i ha hb]

theorem SegPerm.congr {a b : Nat} {x x' y y' : Nat → α} (h : SegPerm a b x y)
    (hx : ∀ i, a ≤ i → i < b → x' i = x i) (hy : ∀ i, a ≤ i → i < b → y' i = y i) :
    SegPerm a b x' y' := by
  obtain ⟨p, p1, p2, p3⟩ := h
  exact ⟨p, p1, p2, fun i ha hb => by
    rw [hy _ (p1 i ha hb).1 (p1 i ha hb).2, hx i ha hb, p3 i ha hb]⟩

theorem SegPerm.join {a m b : Nat} {x y : Nat → α} (h1 : SegPerm a m x y) (h2 : SegPerm m b x y)
    (ham : a ≤ m) (hmb : m ≤ b) : SegPerm a b x y := by
  obtain ⟨p, p1, p2, p3⟩ := h1
  obtain ⟨q, q1, q2, q3⟩ := h2
  refine ⟨fun i => if i < m then p i else q i, fun i ha hb => ?_, fun k ha hb => ?_, fun i ha hb => ?_⟩
  · dsimp only
    split
    · have := p1 i ha ‹_›; omega
    · have := q1 i (by omega) hb; omega
  · by_cases hk : k < m
    · obtain ⟨i, i1, i2, rfl⟩ := p2 k ha hk
      exact ⟨i, i1, by omega, by dsimp only; rw [if_pos i2]⟩
    · obtain ⟨i, i1, i2, rfl⟩ := q2 k (by omega) hb
      exact ⟨i, by omega, i2, by dsimp only; rw [if_neg (by omega)]⟩
  · dsimp only
    split
    · exact p3 i ha ‹_›
    · exact q3 i (by omega) hb

/-- Wider segment. -/
theorem SegPerm.widen {a b u v : Nat} {x y : Nat → α} (h : SegPerm a b x y) (hu : u ≤ a) (hab : a ≤ b)
    (hv : b ≤ v) (he : ∀ i, u ≤ i → i < v → ¬ (a ≤ i ∧ i < b) → y i = x i) : SegPerm u v x y := by
  refine SegPerm.join (m := a) ?_ (SegPerm.join (m := b) h ?_ hab hv) hu (by omega)
  · exact (SegPerm.refl u a x).congr (fun _ _ _ => rfl) (fun i h1 h2 => he i h1 (by omega) (by omega))
  · exact (SegPerm.refl b v x).congr (fun _ _ _ => rfl) (fun i h1 h2 => he i (by omega) h2 (by omega))

theorem SegPerm.preimage {a b : Nat} {x y : Nat → α} (h : SegPerm a b x y) (k : Nat) (h1 : a ≤ k)
    (h2 : k < b) : ∃ i, a ≤ i ∧ i < b ∧ y k = x i := by
  obtain ⟨p, p1, p2, p3⟩ := h
  obtain ⟨i, i1, i2, rfl⟩ := p2 k h1 h2
  exact ⟨i, i1, i2, p3 i i1 i2⟩

theorem SegPerm.toPermuted {n : Nat} {x y : Nat → α} (h : SegPerm 0 n x y) : Permuted n x y := by
  obtain ⟨p, p1, p2, p3⟩ := h
  exact ⟨p, fun i hi => (p1 i (by omega) hi).2,
    fun k hk => by obtain ⟨i, _, hi, e⟩ := p2 k (by omega) hk; exact ⟨i, hi, e⟩,
    fun i hi => p3 i (by omega) hi⟩

theorem SegStable.perm {lt : α → α → Bool} {a b : Nat} {x y : Nat → α} (h : SegStable lt a b x y) :
    SegPerm a b x y := by
  obtain ⟨p, p1, p2, p3, _⟩ := h
  exact ⟨p, p1, p2, p3⟩

end Verif.Sort

namespace Verif.MergeSort
open Verif.Phase Verif.Sort
open Verif.Scan (nwork st ed strides)

variable {α : Type}

theorem swap_perm (f : Nat → α) {a b i j : Nat} (hi : a ≤ i ∧ i < b) (hj : a ≤ j ∧ j < b) :
    SegPerm a b f (swap f i j) := by
  refine ⟨fun k => if k = i then j else if k = j then i else k, ?_, ?_, ?_⟩
  · intro k h1 h2
    dsimp only
    split
    · exact hj
    · split
      · exact hi
      · exact ⟨h1, h2⟩
  · intro k h1 h2
    by_cases h3 : k = i
    · subst h3
      by_cases h4 : j = k
      · exact ⟨k, h1, h2, by dsimp only; rw [if_pos rfl, h4]⟩
      · exact ⟨j, hj.1, hj.2, by dsimp only; rw [if_neg h4, if_pos rfl]⟩
    · by_cases h4 : k = j
      · exact ⟨i, hi.1, hi.2, by dsimp only; rw [if_pos rfl, h4]⟩
      · exact ⟨k, h1, h2, by dsimp only; rw [if_neg h3, if_neg h4]⟩
  · intro k h1 h2
    dsimp only
    unfold swap
    by_cases h3 : k = i
    · rw [if_pos h3, upd_same, h3]
    · rw [if_neg h3]
      by_cases h4 : k = j
      · rw [if_pos h4]
        by_cases h5 : i = j
        · rw [h5, upd_same, h4]
        · rw [upd_ne _ _ _ _ h5, upd_same, h4]
      · rw [if_neg h4, upd_ne _ _ _ _ h4, upd_ne _ _ _ _ h3]

theorem swap_other (f : Nat → α) {i j c : Nat} (hi : c ≠ i) (hj : c ≠ j) : swap f i j c = f c := by
  unfold swap; rw [upd_ne _ _ _ _ hj, upd_ne _ _ _ _ hi]

theorem swap_right (f : Nat → α) (i j : Nat) : swap f i j j = f i := by
  unfold swap; rw [upd_same]

theorem swap_left (f : Nat → α) (i j : Nat) : swap f i j i = f j := by
  unfold swap
  by_cases h : i = j
  · rw [h, upd_same]
  · rw [upd_ne _ _ _ _ h, upd_same]

/-- The partition loop. -/
theorem partLoop_spec (less : α → α → Bool) (f : Nat → α) (l r1 n : Nat) (hn : l + n < r1) :
    let p := (List.range' l n).foldl (partStep less r1) (f, l)
    l ≤ p.2 ∧ p.2 ≤ l + n ∧ (∀ c, l ≤ c → c < p.2 → less (p.1 c) (f (r1 - 1)) = true) ∧
    (∀ c, p.2 ≤ c → c < l + n → less (p.1 c) (f (r1 - 1)) = false) ∧
    (∀ c, ¬ (l ≤ c ∧ c < l + n) → p.1 c = f c) ∧ SegPerm l r1 f p.1 := by
  induction n with
  | zero =>
    exact ⟨Nat.le_refl _, Nat.le_refl _, fun c h1 h2 => by simp at h2; omega, fun c h1 h2 => by simp at h1; omega,
      fun _ _ => rfl, .refl _ _ _⟩
  | succ n ih =>
    dsimp only at *
    rw [List.range'_1_concat, List.foldl_append]
    obtain ⟨i1, i2, i3, i4, i5, i6⟩ := ih (by omega)
    generalize (List.range' l n).foldl (partStep less r1) (f, l) = p at *
    obtain ⟨g, pi⟩ := p
    simp only [List.foldl_cons, List.foldl_nil, partStep] at *
    rw [i5 (r1 - 1) (by omega)]
    by_cases hc : less (g (l + n)) (f (r1 - 1)) = true
    · rw [if_pos hc]
      dsimp only
      refine ⟨by omega, by omega, ?_, ?_, ?_, ?_⟩
      · intro c h1 h2
        by_cases h3 : c = pi
        · rw [h3, swap_left]; exact hc
        · rw [swap_other _ h3 (by omega)]; exact i3 c h1 (by omega)
      · intro c h1 h2
        by_cases h3 : c = l + n
        · rw [h3, swap_right]; exact i4 pi (by omega) (by omega)
        · rw [swap_other _ (by omega) h3]; exact i4 c (by omega) (by omega)
      · intro c h1
        rw [swap_other _ (by omega) (by omega), i5 c (by omega)]
      · exact i6.trans (swap_perm g ⟨by omega, by omega⟩ ⟨by omega, by omega⟩)
    · rw [if_neg hc]
      dsimp only
      refine ⟨by omega, by omega, i3, ?_, fun c h1 => i5 c (by omega), i6⟩
      intro c h1 h2
      by_cases h3 : c = l + n
      · rw [h3]; simpa using hc
      · exact i4 c h1 (by omega)

theorem partition_spec (less : α → α → Bool) (f : Nat → α) (l r1 : Nat) (h : l + 1 < r1) :
    let p := partition less f l r1
    (∀ c, l ≤ c → c < p.2 → less (p.1 c) (p.1 p.2) = true) ∧
    (∀ c, p.2 < c → c < r1 → less (p.1 c) (p.1 p.2) = false) ∧
    (∀ c, ¬ (l ≤ c ∧ c < r1) → p.1 c = f c) ∧ SegPerm l r1 f p.1 := by
  have hs := partLoop_spec less f l r1 (r1 - 1 - l) (by omega)
  unfold partition
  dsimp only at *
  generalize (List.range' l (r1 - 1 - l)).foldl (partStep less r1) (f, l) = p at *
  obtain ⟨g, pi⟩ := p
  dsimp only at *
  obtain ⟨i1, i2, i3, i4, i5, i6⟩ := hs
  rw [swap_left, i5 (r1 - 1) (by omega)]
  refine ⟨?_, ?_, ?_, i6.trans (swap_perm g ⟨by omega, by omega⟩ ⟨by omega, by omega⟩)⟩
  · intro c h1 h2
    rw [swap_other _ (by omega) (by omega)]; exact i3 c h1 h2
  · intro c h1 h2
    by_cases h3 : c = r1 - 1
    · rw [h3, swap_right]; exact i4 pi (by omega) (by omega)
    · rw [swap_other _ (by omega) h3]; exact i4 c (by omega) (by omega)
  · intro c h1
    rw [swap_other _ (by omega) (by omega), i5 c (by omega)]

theorem quickSort_step (less : α → α → Bool) (f : Nat → α) (l r1 : Nat) :
    quickSort less f l r1 = if l + 1 < r1 then
      quickSort less (quickSort less (partition less f l r1).1 l (partition less f l r1).2)
        ((partition less f l r1).2 + 1) r1 else f := by
  rw [quickSort]
  split <;> rfl

theorem quickSort_spec {less : α → α → Bool} (hl : StrictWeak less) (f : Nat → α) (l r1 : Nat) :
    SegPerm l r1 f (quickSort less f l r1) ∧
    (∀ i j, l ≤ i → i < j → j < r1 →
      less (quickSort less f l r1 j) (quickSort less f l r1 i) = false) ∧
    (∀ c, ¬ (l ≤ c ∧ c < r1) → quickSort less f l r1 c = f c) := by
  induction hd : r1 - l using Nat.strongRecOn generalizing f l r1 with
  | _ d ih =>
    rw [quickSort_step]
    split
    · rename_i h
      have hb := partition_bound less f l r1 h
      obtain ⟨q1, q2, q3, q4⟩ := partition_spec less f l r1 h
      generalize partition less f l r1 = p at *
      obtain ⟨g, pi⟩ := p
      dsimp only at *
      obtain ⟨a1, a2, a3⟩ := ih (pi - l) (by omega) g l pi rfl
      generalize quickSort less g l pi = g1 at *
      obtain ⟨b1, b2, b3⟩ := ih (r1 - (pi + 1)) (by omega) g1 (pi + 1) r1 rfl
      generalize quickSort less g1 (pi + 1) r1 = g2 at *
      have w1 : SegPerm l r1 g g1 := a1.widen (Nat.le_refl _) hb.1 (by omega) (fun i _ _ h3 => a3 i h3)
      have w2 : SegPerm l r1 g1 g2 := b1.widen (by omega) (by omega) (Nat.le_refl _)
        (fun i _ _ h3 => b3 i h3)
      have low : ∀ c, l ≤ c → c < pi → less (g2 c) (g pi) = true := by
        intro c h1 h2
        rw [b3 c (by omega)]
        obtain ⟨i, i1, i2, e⟩ := a1.preimage c h1 h2
        rw [e]; exact q1 i i1 i2
      have high : ∀ c, pi < c → c < r1 → less (g2 c) (g pi) = false := by
        intro c h1 h2
        obtain ⟨i, i1, i2, e⟩ := b1.preimage c h1 h2
        rw [e, a3 i (by omega)]; exact q2 i i1 i2
      have mid : g2 pi = g pi := by rw [b3 pi (by omega), a3 pi (by omega)]
      refine ⟨q4.trans (w1.trans w2), ?_, ?_⟩
      · intro i j h1 h2 h3
        rcases Nat.lt_trichotomy i pi with c1 | c1 | c1
        · rcases Nat.lt_trichotomy j pi with c2 | c2 | c2
          · rw [b3 i (by omega), b3 j (by omega)]; exact a2 i j h1 h2 c2
          · rw [c2, mid]; exact hl.asymm (low i h1 c1)
          · refine Bool.eq_false_iff.2 fun hc => ?_
            have := hl.trans _ _ _ hc (low i h1 c1)
            rw [high j c2 h3] at this
            exact absurd this (by decide)
        · rw [c1, mid]; exact high j (by omega) h3
        · exact b2 i j (by omega) h2 h3
      · intro c hc
        rw [b3 c (by omega), a3 c (by omega), q3 c hc]
    · rename_i h
      exact ⟨.refl _ _ _, fun i j h1 h2 h3 => by omega, fun _ _ => rfl⟩

theorem partLoop_congr (less : α → α → Bool) (f g : Nat → α) (l r1 n : Nat) (hn : l + n < r1)
    (h : ∀ i, l ≤ i → i < r1 → f i = g i) :
    let p := (List.range' l n).foldl (partStep less r1) (f, l)
    let q := (List.range' l n).foldl (partStep less r1) (g, l)
    p.2 = q.2 ∧ l ≤ p.2 ∧ p.2 ≤ l + n ∧ ∀ i, l ≤ i → i < r1 → p.1 i = q.1 i := by
  induction n with
  | zero => exact ⟨rfl, Nat.le_refl _, Nat.le_refl _, h⟩
  | succ n ih =>
    dsimp only at *
    rw [List.range'_1_concat, List.foldl_append, List.foldl_append]
    obtain ⟨i1, i2, i3, i4⟩ := ih (by omega)
    generalize (List.range' l n).foldl (partStep less r1) (f, l) = p at *
    generalize (List.range' l n).foldl (partStep less r1) (g, l) = q at *
    obtain ⟨p, pi⟩ := p
    obtain ⟨q, qi⟩ := q
    simp only [List.foldl_cons, List.foldl_nil, partStep] at *
    subst i1
    rw [i4 (l + n) (by omega) (by omega), i4 (r1 - 1) (by omega) (by omega)]
    split
    · refine ⟨rfl, by dsimp only; omega, by dsimp only; omega, fun i h1 h2 => ?_⟩
      dsimp only
      unfold swap upd
      rw [i4 (l + n) (by omega) (by omega), i4 pi (by omega) (by omega), i4 i h1 h2]
    · exact ⟨rfl, i2, by dsimp only; omega, i4⟩

theorem partition_congr (less : α → α → Bool) (f g : Nat → α) (l r1 : Nat) (hn : l + 1 < r1)
    (h : ∀ i, l ≤ i → i < r1 → f i = g i) :
    (partition less f l r1).2 = (partition less g l r1).2 ∧
      ∀ i, l ≤ i → i < r1 → (partition less f l r1).1 i = (partition less g l r1).1 i := by
  have := partLoop_congr less f g l r1 (r1 - 1 - l) (by omega) h
  unfold partition
  dsimp only at *
  generalize (List.range' l (r1 - 1 - l)).foldl (partStep less r1) (f, l) = p at *
  generalize (List.range' l (r1 - 1 - l)).foldl (partStep less r1) (g, l) = q at *
  obtain ⟨p, pi⟩ := p
  obtain ⟨q, qi⟩ := q
  dsimp only at *
  obtain ⟨i1, i2, i3, i4⟩ := this
  subst i1
  refine ⟨rfl, fun i h1 h2 => ?_⟩
  unfold swap upd
  rw [i4 (r1 - 1) (by omega) (by omega), i4 pi (by omega) (by omega), i4 i h1 h2]

theorem quickSort_congr {less : α → α → Bool} (hl : StrictWeak less) (f g : Nat → α) (l r1 : Nat)
    (h : ∀ i, l ≤ i → i < r1 → f i = g i) :
    ∀ i, l ≤ i → i < r1 → quickSort less f l r1 i = quickSort less g l r1 i := by
  induction hd : r1 - l using Nat.strongRecOn generalizing f g l r1 with
  | _ d ih =>
    rw [quickSort_step less f, quickSort_step less g]
    split
    · rename_i hlr
      have hb := partition_bound less f l r1 hlr
      obtain ⟨c1, c2⟩ := partition_congr less f g l r1 hlr h
      generalize partition less f l r1 = p at *
      generalize partition less g l r1 = q at *
      obtain ⟨p, pi⟩ := p
      obtain ⟨q, qi⟩ := q
      dsimp only at *
      subst c1
      have e1 := ih (pi - l) (by omega) p q l pi (fun i h1 h2 => c2 i h1 (by omega)) rfl
      have fr1 := (quickSort_spec hl p l pi).2.2
      have fr2 := (quickSort_spec hl q l pi).2.2
      have e2 : ∀ i, l ≤ i → i < r1 → quickSort less p l pi i = quickSort less q l pi i := by
        intro i h1 h2
        by_cases hi : i < pi
        · exact e1 i h1 hi
        · rw [fr1 i (by omega), fr2 i (by omega), c2 i h1 h2]
      generalize quickSort less p l pi = p1 at *
      generalize quickSort less q l pi = q1 at *
      have e3 := ih (r1 - (pi + 1)) (by omega) p1 q1 (pi + 1) r1 (fun i h1 h2 => e2 i (by omega) h2) rfl
      have fr3 := (quickSort_spec hl p1 (pi + 1) r1).2.2
      have fr4 := (quickSort_spec hl q1 (pi + 1) r1).2.2
      intro i h1 h2
      by_cases hi : pi < i
      · exact e3 i (by omega) h2
      · rw [fr3 i (by omega), fr4 i (by omega), e2 i h1 h2]
    · exact h

theorem quickSort_sorts {less : α → α → Bool} (hl : StrictWeak less) :
    SortsSegments less (quickSort less) :=
  ⟨fun f g l r => quickSort_congr hl f g l r, fun f l r => (quickSort_spec hl f l r).1,
    fun f l r => (quickSort_spec hl f l r).2.1⟩

variable [Inhabited α]

/-- The unstable parallel sorts. -/
theorem unstableSort_run {lt : α → α → Bool} (hl : StrictWeak lt)
    (srt : (Nat → α) → Nat → Nat → Nat → α) (hsrt : SortsSegments lt srt) (n T : Nat) (hT : 0 < T)
    (s s' : Mem α) (run : Runs T (unstableSort srt lt n T) s s') :
    SegPerm 0 n (at_ s false) (at_ s' false) ∧ Ordered n lt (at_ s' false) ∧
      (∀ i, n ≤ i → at_ s' false i = at_ s false i) := by
  cases run with
  | cons hi hr =>
    rename_i sched
    have hf : ∀ t, t < T → FootFrom (Own t (st n T t) (ed n T t)) (Own t (st n T t) (ed n T t))
        (localUnstable srt (st n T t) (ed n T t)) s := by
      intro t _
      refine ⟨fun s' h => ⟨fun l hl => ?_, fun l hl => ?_⟩, trivial⟩
      · dsimp only
        split
        · rename_i i
          have hl' : ¬ (st n T t ≤ i ∧ i < ed n T t) := hl
          rw [if_neg hl']
        · rfl
      · dsimp only
        split
        · rename_i i
          have hl' : st n T t ≤ i ∧ i < ed n T t := hl
          rw [if_pos hl', if_pos hl', hsrt.dep (at_ s' false) (at_ s false) _ _
            (fun i h1 h2 => by unfold at_; rw [h (.arr false i) ⟨h1, h2⟩]) i hl.1 hl.2]
        · exact h _ hl
    obtain ⟨r1, r2⟩ := exec_thread_from T (fun t => Own t (st n T t) (ed n T t))
      (fun t => Own t (st n T t) (ed n T t))
      (fun t u l _ _ hne hw => own_disjoint_chunk n T hne l hw) _ s hf sched hi
    have val : ∀ t, t < T → ∀ i, st n T t ≤ i → i < ed n T t →
        at_ (exec sched s) false i = srt (at_ s false) (st n T t) (ed n T t) i := by
      intro t ht i h1 h2
      have := r1 t ht (.arr false i) ⟨h1, h2⟩
      unfold at_
      rw [this]
      simp only [localUnstable, exec_cons, exec_nil]
      rw [if_pos ⟨h1, h2⟩]
      rfl
    generalize hs1 : exec sched s = s1 at *
    have ord : ∀ t, t < T → SegStable lt (st n T t) (ed n T t) (at_ s1 false) (at_ s1 false) := by
      intro t ht
      refine .self hl fun i j h1 h2 h3 => ?_
      rw [val t ht i h1 (by omega), val t ht j (by omega) h3]
      exact hsrt.ord _ _ _ i j h1 h2 h3
    have chunk : ∀ t, t < T → SegPerm (st n T t) (ed n T t) (at_ s false) (at_ s1 false) := fun t ht =>
      SegPerm.congr (hsrt.perm (at_ s false) (st n T t) (ed n T t)) (fun _ _ _ => rfl) (val t ht)
    have all : ∀ t, t ≤ T → SegPerm 0 (min (nwork n T * t) n) (at_ s false) (at_ s1 false) := by
      intro t
      induction t with
      | zero => intro _; rw [Nat.mul_zero, Nat.zero_min]; exact ⟨id, fun _ _ h => by omega, fun _ _ h => by omega, fun _ _ h => by omega⟩
      | succ t ih =>
        intro ht
        have h1 := ih (by omega)
        have h2 := chunk t (by omega)
        rw [ed_min] at h2
        have m : nwork n T * t ≤ nwork n T * (t + 1) := Nat.mul_le_mul_left _ (by omega)
        by_cases hc : nwork n T * t < n
        · rw [Nat.min_eq_left (Nat.le_of_lt hc)] at h1
          exact h1.join h2 (by omega) (by omega)
        · rw [Nat.min_eq_right (by omega)] at h1
          rw [Nat.min_eq_right (by omega)]
          exact h1
    have hnT := Verif.Scan.le_nwork_mul n T hT
    have perm := all T (Nat.le_refl _)
    rw [Nat.min_eq_right hnT] at perm
    obtain ⟨c1, c2⟩ := crossPhases_run hl n T hT (at_ s1 false) 1 (by decide) (fun _ => false) s1 s'
      (fun _ _ _ _ _ _ _ _ => rfl)
      (fun t ht _ _ => by rw [← ed_min]; exact ord t ht) hr
    refine ⟨perm.trans c1.perm, fun i j hij hj => c1.sorted i j (by omega) hij hj, fun i hi' => ?_⟩
    rw [c2 i hi']
    unfold at_
    rw [r2 (.arr false i) (fun t _ hw => by
      have := Verif.Scan.ed_le n T t
      have := hw.2
      omega)]

end Verif.MergeSort
