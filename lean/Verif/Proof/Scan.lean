import Verif.Model.Scan
import Verif.Spec.Scan
import Verif.Proof.Phase
namespace Verif.Scan
open Verif.Phase

theorem assign_same {α : Type} (l : Loc) (e : Mem α → α) (s : Mem α) : assign l e s l = e s :=
  upd_same _ _ _

theorem assign_ne {α : Type} (l l' : Loc) (e : Mem α → α) (s : Mem α) (h : l' ≠ l) :
    assign l e s l' = s l' := upd_ne _ _ _ _ h

theorem foot_assign {α : Type} {R W : Loc → Prop} (l : Loc) (e : Mem α → α) (hW : W l)
    (he : ∀ s s' : Mem α, (∀ l, R l → s l = s' l) → e s = e s') : Foot R W (assign l e) := by
  constructor
  · intro s l' h
    exact assign_ne _ _ _ _ (fun e => h (e ▸ hW))
  · intro s s' hs l' hl'
    by_cases h : l' = l
    · subst h; rw [assign_same, assign_same]; exact he s s' hs
    · rw [assign_ne _ _ _ _ h, assign_ne _ _ _ _ h]; exact hs _ hl'

/-! ### Segments -/

theorem le_nwork_mul (n T : Nat) (hT : 0 < T) : n ≤ nwork n T * T := by
  unfold nwork
  have h := Nat.div_add_mod (n + T - 1) T
  have h2 := Nat.mod_lt (n + T - 1) hT
  rw [Nat.mul_comm] at h
  generalize (n + T - 1) / T * T = q at *
  omega

theorem st_succ (n T t : Nat) : st n T (t + 1) = st n T t + nwork n T := by
  simp [st, Nat.mul_add]

theorem st_zero (n T : Nat) : st n T 0 = 0 := by simp [st]

theorem st_mono (n T : Nat) {t u : Nat} (h : t ≤ u) : st n T t ≤ st n T u :=
  Nat.mul_le_mul_left _ h

theorem ed_le (n T t : Nat) : ed n T t ≤ n := by unfold ed; split <;> omega

theorem ed_le_st (n T : Nat) {t u : Nat} (h : t < u) : ed n T t ≤ st n T u := by
  have := st_mono n T (show t + 1 ≤ u from h)
  rw [st_succ] at this
  unfold ed; split <;> omega

theorem active_iff (n T t : Nat) (hT : 0 < T) : st n T t < ed n T t ↔ st n T t < n := by
  have h1 := le_nwork_mul n T hT
  have h2 : n ≠ 0 → nwork n T ≠ 0 := by
    intro h h'; rw [h'] at h1; omega
  unfold ed; split <;> omega

theorem ed_eq (n T t : Nat) (h : st n T (t + 1) < n) : ed n T t = st n T (t + 1) := by
  rw [st_succ] at *
  unfold ed; split <;> omega

theorem seg_exists (n T i : Nat) (hT : 0 < T) (hi : i < n) :
    ∃ t, t < T ∧ st n T t ≤ i ∧ i < ed n T t := by
  have h1 := le_nwork_mul n T hT
  have h0 : 0 < nwork n T := by
    rcases Nat.eq_zero_or_pos (nwork n T) with h | h
    · rw [h] at h1; omega
    · exact h
  have e := Nat.div_add_mod i (nwork n T)
  have e2 := Nat.mod_lt i h0
  refine ⟨i / nwork n T, ?_, ?_, ?_⟩
  · apply Nat.div_lt_of_lt_mul; omega
  · unfold st; omega
  · unfold ed st; split <;> omega

/-- `x a op ... op x (a+k)`. -/
def seg {α : Type} (op : α → α → α) (x : Nat → α) (a : Nat) : Nat → α
  | 0 => x a
  | k + 1 => op (seg op x a k) (x (a + k + 1))

theorem seg_incl {α : Type} (op : α → α → α) (x : Nat → α) (i : Nat) :
    seg op x 0 i = inclSpec op x i := by
  induction i with
  | zero => rfl
  | succ i ih => simp [seg, inclSpec, ih]

theorem seg_append {α : Type} (op : α → α → α) (ha : ∀ a b c, op (op a b) c = op a (op b c))
    (x : Nat → α) (a j k : Nat) :
    op (seg op x a j) (seg op x (a + j + 1) k) = seg op x a (j + 1 + k) := by
  induction k with
  | zero => rfl
  | succ k ih =>
    rw [seg, ← ha, ih, show j + 1 + (k + 1) = (j + 1 + k) + 1 by omega, seg]
    congr 2; omega

/-! ### First phase -/

theorem rd_ne_reg (b : Bool) (i t : Nat) : rd b i ≠ .reg t := by cases b <;> simp [rd]

theorem incl_loop {α : Type} (op : α → α → α) (b : Bool) (x : Nat → α) (a t m : Nat) (s : Mem α)
    (hr : s (.reg t) = x a) (ho : s (.out a) = x a)
    (hrd : ∀ k, k < m → s (rd b (a + 1 + k)) = x (a + 1 + k)) :
    let s1 := exec ((List.range m).flatMap (fun k =>
      [assign (.reg t) (fun s => op (s (.reg t)) (s (rd b (a + 1 + k)))),
       assign (.out (a + 1 + k)) (fun s => s (.reg t))])) s
    s1 (.reg t) = seg op x a m ∧ (∀ k, k ≤ m → s1 (.out (a + k)) = seg op x a k) ∧
      (∀ l, l ≠ .reg t → (∀ k, k < m → l ≠ .out (a + 1 + k)) → s1 l = s l) := by
  induction m with
  | zero =>
    refine ⟨by simpa [exec, seg] using hr, ?_, ?_⟩
    · intro k hk
      obtain rfl : k = 0 := by omega
      simpa [exec, seg] using ho
    · intro l _ _; simp [exec]
  | succ m ih =>
    obtain ⟨i1, i2, i3⟩ := ih (fun k hk => hrd k (by omega))
    dsimp only at i1 i2 i3 ⊢
    rw [List.range_succ, List.flatMap_append, exec_append]
    generalize exec (List.flatMap _ (List.range m)) s = s1 at i1 i2 i3 ⊢
    simp only [List.flatMap_cons, List.flatMap_nil, List.append_nil, exec_cons, exec_nil]
    have hx : s1 (rd b (a + 1 + m)) = x (a + 1 + m) := by
      rw [i3 _ (rd_ne_reg _ _ _), hrd m (by omega)]
      intro k hk; cases b <;> simp [rd]; omega
    have hv : op (s1 (.reg t)) (s1 (rd b (a + 1 + m))) = seg op x a (m + 1) := by
      rw [i1, hx, seg]; congr 2; omega
    refine ⟨?_, ?_, ?_⟩
    · rw [assign_ne _ _ _ _ (by simp), assign_same, hv]
    · intro k hk
      by_cases e : k = m + 1
      · subst e
        rw [show a + (m + 1) = a + 1 + m by omega, assign_same, assign_same, hv]
      · rw [assign_ne _ _ _ _ (by simp; omega), assign_ne _ _ _ _ (by simp), i2 k (by omega)]
    · intro l h1 h2
      rw [assign_ne _ _ _ _ (h2 m (by omega)), assign_ne _ _ _ _ h1]
      exact i3 l h1 (fun k hk => h2 k (by omega))

/-- What thread `t` owns in the first phase. -/
def W1 (n T t : Nat) : Loc → Prop
  | .src _ => False
  | .out i => st n T t ≤ i ∧ i < ed n T t
  | .reg u => u = t
  | .loc u => u = t

/-- What thread `t` reads or writes in the first phase. -/
def R1 (n T t : Nat) : Loc → Prop
  | .src _ => True
  | l => W1 n T t l

theorem R1_rd (n T t : Nat) (b : Bool) (i : Nat) (h1 : st n T t ≤ i) (h2 : i < ed n T t) :
    R1 n T t (rd b i) := by cases b <;> simp [rd, R1, W1, *]

theorem W1_R1 (n T : Nat) (t u : Nat) (l : Loc) (h : t ≠ u) (hw : W1 n T u l) : ¬ R1 n T t l := by
  cases l with
  | src i => exact absurd hw (by simp [W1])
  | out i =>
    simp only [R1, W1] at *
    rcases Nat.lt_or_gt_of_ne h with h | h
    · have := ed_le_st n T h; omega
    · have := ed_le_st n T h; omega
  | reg i => simp only [R1, W1] at *; omega
  | loc i => simp only [R1, W1] at *; omega

theorem inclLocal_foot {α : Type} (op : α → α → α) (b : Bool) (n T t : Nat) :
    ∀ a ∈ inclLocal op b n T t, Foot (R1 n T t) (W1 n T t) a := by
  intro a ha
  unfold inclLocal at ha
  split at ha
  case isFalse => simp at ha
  case isTrue h =>
    simp only [List.mem_append, List.mem_cons, List.not_mem_nil, or_false, List.mem_flatMap,
      List.mem_range] at ha
    rcases ha with ((rfl | rfl) | ⟨k, hk, rfl | rfl⟩) | rfl
    · exact foot_assign _ _ rfl (fun s s' hs => hs _ (R1_rd _ _ _ _ _ (Nat.le_refl _) h))
    · exact foot_assign _ _ ⟨Nat.le_refl _, h⟩ (fun s s' hs => hs _ rfl)
    · exact foot_assign _ _ rfl (fun s s' hs => by
        rw [hs (.reg t) rfl, hs _ (R1_rd _ _ _ _ _ (by omega) (by omega))])
    · exact foot_assign _ _ ⟨by omega, by omega⟩ (fun s s' hs => hs _ rfl)
    · exact foot_assign _ _ rfl (fun s s' hs => hs _ rfl)

theorem inclLocal_alone {α : Type} (op : α → α → α) (b : Bool) (x : Nat → α) (n T t : Nat)
    (s : Mem α) (h : st n T t < ed n T t)
    (hx : ∀ i, i < n → s (rd b i) = x i) :
    let s1 := exec (inclLocal op b n T t) s
    s1 (.reg t) = seg op x (st n T t) (ed n T t - 1 - st n T t) ∧
    s1 (.loc t) = seg op x (st n T t) (ed n T t - 1 - st n T t) ∧
    (∀ i, st n T t ≤ i → i < ed n T t → s1 (.out i) = seg op x (st n T t) (i - st n T t)) := by
  have hle := ed_le n T t
  dsimp only
  rw [inclLocal, if_pos h, exec_append, exec_append]
  simp only [exec_cons, exec_nil]
  generalize st n T t = a at *
  generalize ed n T t = e at *
  have h1 : s (rd b a) = x a := hx a (by omega)
  obtain ⟨l1, l2, l3⟩ := incl_loop op b x a t (e - (a + 1))
    (assign (.out a) (fun s => s (.reg t)) (assign (.reg t) (fun s => s (rd b a)) s))
    (by rw [assign_ne _ _ _ _ (by simp), assign_same, h1])
    (by rw [assign_same, assign_same, h1])
    (by
      intro k hk
      rw [assign_ne _ _ _ _ (by cases b <;> simp [rd]; omega), assign_ne _ _ _ _ (rd_ne_reg _ _ _)]
      exact hx _ (by omega))
  refine ⟨?_, ?_, ?_⟩
  · rw [assign_ne _ _ _ _ (by simp), l1]; congr 1; omega
  · rw [assign_same, l1]; congr 1; omega
  · intro i hi1 hi2
    rw [assign_ne _ _ _ _ (by simp)]
    have := l2 (i - a) (by omega)
    rwa [show a + (i - a) = i by omega] at this

/-! ### Stride loop -/

/-- The threads `t+1-w .. t` combined. -/
def blk {α : Type} (op : α → α → α) (x : Nat → α) (n T t w : Nat) : α :=
  seg op x (st n T (t + 1 - w)) (ed n T t - 1 - st n T (t + 1 - w))

theorem blk_step {α : Type} (op : α → α → α) (ha : ∀ a b c, op (op a b) c = op a (op b c))
    (hc : ∀ a b, op a b = op b a) (x : Nat → α) (n T t w : Nat) (hw : 0 < w) (hwt : w ≤ t)
    (hT : 0 < T) (hact : st n T t < n) :
    op (blk op x n T t w) (blk op x n T (t - w) w) = blk op x n T t (w * 2) := by
  rw [hc]
  unfold blk
  have e1 : t - w + 1 = t + 1 - w := by omega
  have hm : st n T (t + 1 - w) ≤ st n T t := st_mono _ _ (by omega)
  have e2 : ed n T (t - w) = st n T (t + 1 - w) := by
    rw [ed_eq n T (t - w) (by rw [e1]; omega), e1]
  have hact2 : st n T (t - w) < ed n T (t - w) := by
    rw [active_iff _ _ _ hT]
    have : st n T (t - w) ≤ st n T t := st_mono _ _ (by omega)
    omega
  have hm2 : st n T (t - w + 1 - w) ≤ st n T (t - w) := st_mono _ _ (by omega)
  have hact3 := (active_iff n T t hT).2 hact
  rw [e2] at *
  rw [show t + 1 - w * 2 = t - w + 1 - w by omega]
  generalize st n T (t - w + 1 - w) = a at *
  generalize st n T (t + 1 - w) = c at *
  generalize st n T t = d at *
  generalize ed n T t = e at *
  have := seg_append op ha x a (c - 1 - a) (e - 1 - c)
  rw [show a + (c - 1 - a) + 1 = c by omega] at this
  rw [this]; congr 1; omega

/-- Footprint of `gather`. -/
def Rg (t : Nat) : Loc → Prop
  | .reg u => u = t
  | .loc _ => True
  | _ => False

def Wg (t : Nat) : Loc → Prop := fun l => l = .reg t

/-- Footprint of `publish`. -/
def Rp (t : Nat) : Loc → Prop := fun l => l = .reg t ∨ l = .loc t

def Wp (t : Nat) : Loc → Prop := fun l => l = .loc t

theorem gather_run {α : Type} (op : α → α → α) (n T w : Nat) (s : Mem α)
    (sched : List (Mem α → Mem α)) (h : Interleave T (gather op n T w) sched) :
    (∀ t, t < T → exec sched s (.reg t) =
      if t ≥ w ∧ st n T t < ed n T t then op (s (.reg t)) (s (.loc (t - w))) else s (.reg t)) ∧
    (∀ l, (∀ t, l ≠ .reg t) → exec sched s l = s l) := by
  obtain ⟨h1, h2⟩ := exec_thread T Rg Wg
    (by intro t u l _ _ hne hw hr; subst hw; simp [Rg] at hr; omega)
    (gather op n T w)
    (by
      intro t _ a ha
      unfold gather at ha
      split at ha
      · simp only [List.mem_cons, List.not_mem_nil, or_false] at ha
        subst ha
        exact foot_assign _ _ rfl (fun s s' hs => by rw [hs (.reg t) rfl, hs (.loc (t - w)) trivial])
      · simp at ha) sched h s
  refine ⟨fun t ht => ?_, fun l hl => h2 l (fun t _ hw => hl t hw)⟩
  rw [h1 t ht (.reg t) rfl, gather]
  split
  · rw [exec_cons, exec_nil, assign_same]
  · rfl

theorem publish_run {α : Type} (n T w : Nat) (s : Mem α)
    (sched : List (Mem α → Mem α)) (h : Interleave T (publish n T w) sched) :
    (∀ t, t < T → exec sched s (.loc t) =
      if t ≥ w ∧ st n T t < ed n T t then s (.reg t) else s (.loc t)) ∧
    (∀ l, (∀ t, l ≠ .loc t) → exec sched s l = s l) := by
  obtain ⟨h1, h2⟩ := exec_thread T Rp Wp
    (by intro t u l _ _ hne hw hr; subst hw; simp [Rp] at hr; omega)
    (publish n T w)
    (by
      intro t _ a ha
      unfold publish at ha
      split at ha
      · simp only [List.mem_cons, List.not_mem_nil, or_false] at ha
        subst ha
        exact foot_assign _ _ rfl (fun s s' hs => hs _ (Or.inl rfl))
      · simp at ha) sched h s
  refine ⟨fun t ht => ?_, fun l hl => h2 l (fun t _ hw => hl t hw)⟩
  rw [h1 t ht _ (Or.inr rfl), publish]
  split
  · rw [exec_cons, exec_nil, assign_same]
  · rfl

theorem stride_run {α : Type} (op : α → α → α) (ha : ∀ a b c, op (op a b) c = op a (op b c))
    (hc : ∀ a b, op a b = op b a) (x : Nat → α) (n T : Nat) (hT : 0 < T) :
    ∀ (k w : Nat), T - w ≤ k → 0 < w → ∀ s s' : Mem α,
    (∀ t, t < T → st n T t < n → s (.reg t) = blk op x n T t w ∧ s (.loc t) = blk op x n T t w) →
    Runs T ((strides T w).flatMap fun w => [gather op n T w, publish n T w]) s s' →
    (∀ t, t < T → st n T t < n → s' (.loc t) = seg op x 0 (ed n T t - 1)) ∧
    (∀ i, s' (.out i) = s (.out i)) ∧ (∀ i, s' (.src i) = s (.src i)) := by
  intro k
  induction k with
  | zero =>
    intro w hk hw s s' hinv hr
    rw [strides, dif_neg (by omega)] at hr
    cases hr
    refine ⟨fun t ht hact => ?_, fun _ => rfl, fun _ => rfl⟩
    rw [(hinv t ht hact).2, blk, show t + 1 - w = 0 by omega, st_zero]; rfl
  | succ k ih =>
    intro w hk hw s s' hinv hr
    rw [strides] at hr
    split at hr
    case isFalse hlt =>
      cases hr
      refine ⟨fun t ht hact => ?_, fun _ => rfl, fun _ => rfl⟩
      rw [(hinv t ht hact).2, blk, show t + 1 - w = 0 by omega, st_zero]; rfl
    case isTrue hlt =>
      rw [List.flatMap_cons] at hr
      obtain ⟨m, hr1, hr2⟩ := runs_append hr
      cases hr1 with
      | cons hg hr1 =>
      cases hr1 with
      | cons hp hr1 =>
      cases hr1
      rename_i sg sp
      obtain ⟨g1, g2⟩ := gather_run op n T w s sg hg
      obtain ⟨p1, p2⟩ := publish_run n T w (exec sg s) sp hp
      have key : ∀ t, t < T → st n T t < n →
          exec sp (exec sg s) (.reg t) = blk op x n T t (w * 2) ∧
          exec sp (exec sg s) (.loc t) = blk op x n T t (w * 2) := by
        intro t ht hact
        have hact' := (active_iff n T t hT).2 hact
        rw [p2 (.reg t) (by simp), p1 t ht, g1 t ht, g2 (.loc t) (by simp)]
        by_cases h : w ≤ t
        · rw [if_pos ⟨h, hact'⟩, if_pos ⟨h, hact'⟩]
          have hm : st n T (t - w) ≤ st n T t := st_mono _ _ (by omega)
          rw [(hinv t ht hact).1, (hinv (t - w) (by omega) (by omega)).2,
            blk_step op ha hc x n T t w hw h hT hact]
          exact ⟨rfl, rfl⟩
        · rw [if_neg (fun hh => h hh.1), if_neg (fun hh => h hh.1)]
          rw [(hinv t ht hact).1, (hinv t ht hact).2, blk, blk,
            show t + 1 - w = 0 by omega, show t + 1 - w * 2 = 0 by omega]
          exact ⟨rfl, rfl⟩
      obtain ⟨r1, r2, r3⟩ := ih (w * 2) (by omega) (by omega) _ s' key hr2
      refine ⟨r1, fun i => ?_, fun i => ?_⟩
      · rw [r2, p2 _ (by simp), g2 _ (by simp)]
      · rw [r3, p2 _ (by simp), g2 _ (by simp)]

/-! ### Last phase -/

def Ra (n T t : Nat) : Loc → Prop
  | .src _ => False
  | .out i => st n T t ≤ i ∧ i < ed n T t
  | .reg u => u = t
  | .loc _ => True

def Wa (n T t : Nat) : Loc → Prop
  | .out i => st n T t ≤ i ∧ i < ed n T t
  | .reg u => u = t
  | _ => False

theorem map_loop {α : Type} (op : α → α → α) (a t m : Nat) (s : Mem α) :
    let s1 := exec ((List.range m).map (fun k =>
      assign (.out (a + k)) (fun s : Mem α => op (s (.out (a + k))) (s (.reg t))))) s
    (∀ k, k < m → s1 (.out (a + k)) = op (s (.out (a + k))) (s (.reg t))) ∧
      (∀ l, (∀ k, k < m → l ≠ .out (a + k)) → s1 l = s l) := by
  induction m with
  | zero => exact ⟨fun k hk => by omega, fun l _ => rfl⟩
  | succ m ih =>
    obtain ⟨i1, i2⟩ := ih
    dsimp only at i1 i2 ⊢
    rw [List.range_succ, List.map_append, exec_append]
    generalize exec (List.map _ (List.range m)) s = s1 at i1 i2 ⊢
    simp only [List.map_cons, List.map_nil, exec_cons, exec_nil]
    refine ⟨fun k hk => ?_, fun l hl => ?_⟩
    · by_cases e : k = m
      · subst e
        rw [assign_same, i2 _ (by simp; omega), i2 _ (by simp)]
      · rw [assign_ne _ _ _ _ (by simp; omega), i1 k (by omega)]
    · rw [assign_ne _ _ _ _ (hl m (by omega)), i2 l (fun k hk => hl k (by omega))]

theorem addPrefix_run {α : Type} (op : α → α → α) (n T : Nat) (s : Mem α)
    (sched : List (Mem α → Mem α)) (h : Interleave T (addPrefix op n T) sched) :
    (∀ t, t < T → ∀ i, st n T t ≤ i → i < ed n T t → exec sched s (.out i) =
      if t = 0 then s (.out i) else op (s (.out i)) (s (.loc (t - 1)))) ∧
    (∀ i, n ≤ i → exec sched s (.out i) = s (.out i)) ∧
    (∀ i, exec sched s (.src i) = s (.src i)) := by
  obtain ⟨h1, h2⟩ := exec_thread T (Ra n T) (Wa n T)
    (by
      intro t u l _ _ hne hw hr
      cases l with
      | src i => exact hw
      | loc i => exact hw
      | reg i => simp only [Ra, Wa] at *; omega
      | out i =>
        simp only [Ra, Wa] at *
        rcases Nat.lt_or_gt_of_ne hne with h | h
        · have := ed_le_st n T h; omega
        · have := ed_le_st n T h; omega)
    (addPrefix op n T)
    (by
      intro t _ a ha
      unfold addPrefix at ha
      split at ha
      case isFalse => simp at ha
      case isTrue hh =>
        simp only [List.mem_append, List.mem_cons, List.not_mem_nil, or_false, List.mem_map,
          List.mem_range] at ha
        rcases ha with rfl | ⟨k, hk, rfl⟩
        · exact foot_assign _ _ rfl (fun s s' hs => hs _ trivial)
        · have hin : Ra n T t (.out (st n T t + k)) := ⟨by omega, by omega⟩
          exact foot_assign _ _ hin (fun s s' hs => by rw [hs _ hin, hs (.reg t) rfl])) sched h s
  refine ⟨fun t ht i hi1 hi2 => ?_, fun i hi => h2 _ (fun t _ hw => ?_), fun i => h2 _ (fun t _ hw => hw)⟩
  · rw [h1 t ht (.out i) ⟨hi1, hi2⟩, addPrefix]
    by_cases e : t = 0
    · rw [if_neg (fun hh => hh.1 e), if_pos e]; rfl
    · rw [if_pos ⟨e, by omega⟩, if_neg e, exec_append, exec_cons, exec_nil]
      obtain ⟨m1, _⟩ := map_loop op (st n T t) t (ed n T t - st n T t)
        (assign (.reg t) (fun s => s (.loc (t - 1))) s)
      have := m1 (i - st n T t) (by omega)
      rw [show st n T t + (i - st n T t) = i by omega] at this
      rw [this, assign_same, assign_ne _ _ _ _ (by simp)]
  · have := ed_le n T t
    simp only [Wa] at hw
    omega

/-! ### Concrete cases -/

theorem strides_two : strides 2 1 = [1] := by
  rw [strides, dif_pos (by omega), strides, dif_neg (by omega)]

/-! ### Whole scans -/

theorem inclusive_run {α : Type} (op : α → α → α) (ha : ∀ a b c, op (op a b) c = op a (op b c))
    (hc : ∀ a b, op a b = op b a) (b : Bool) (x : Nat → α) (n T : Nat) (hT : 0 < T)
    (s s' : Mem α) (hx : ∀ i, i < n → s (rd b i) = x i)
    (hr : Runs T (inclusiveScan op b n T) s s') :
    (∀ i, i < n → s' (.out i) = inclSpec op x i) ∧ (∀ i, n ≤ i → s' (.out i) = s (.out i)) ∧
      (∀ i, s' (.src i) = s (.src i)) := by
  unfold inclusiveScan at hr
  cases hr with
  | cons h1 hr =>
  rename_i sl
  obtain ⟨m, hr1, hr2⟩ := runs_append hr
  cases hr2 with
  | cons h3 hr2 =>
  cases hr2
  rename_i sa
  obtain ⟨f1, f2⟩ := exec_thread T (R1 n T) (W1 n T)
    (fun t u l _ _ hne hw => W1_R1 n T t u l hne hw) _ (fun t _ => inclLocal_foot op b n T t) sl h1 s
  have hinv : ∀ t, t < T → st n T t < n →
      exec sl s (.reg t) = blk op x n T t 1 ∧ exec sl s (.loc t) = blk op x n T t 1 := by
    intro t ht hact
    have hact' := (active_iff n T t hT).2 hact
    obtain ⟨a1, a2, _⟩ := inclLocal_alone op b x n T t s hact' hx
    rw [f1 t ht (.reg t) rfl, f1 t ht (.loc t) rfl]
    exact ⟨a1, a2⟩
  obtain ⟨g1, g2, g3⟩ := stride_run op ha hc x n T hT (T - 1) 1 (by omega) (by omega) _ _ hinv hr1
  obtain ⟨k1, k2, k3⟩ := addPrefix_run op n T m sa h3
  refine ⟨fun i hi => ?_, fun i hi => ?_, fun i => ?_⟩
  · obtain ⟨t, ht, hi1, hi2⟩ := seg_exists n T i hT hi
    have hact : st n T t < n := by omega
    rw [k1 t ht i hi1 hi2, g2, f1 t ht (.out i) ⟨hi1, hi2⟩]
    rw [(inclLocal_alone op b x n T t s (by omega) hx).2.2 i hi1 hi2, ← seg_incl]
    by_cases e : t = 0
    · subst e; rw [if_pos rfl, st_zero]; rfl
    · rw [if_neg e, hc]
      obtain ⟨u, rfl⟩ : ∃ u, t = u + 1 := ⟨t - 1, by omega⟩
      have hm : st n T u ≤ st n T (u + 1) := st_mono _ _ (by omega)
      rw [show u + 1 - 1 = u by omega, g1 u (by omega) (by omega), ed_eq n T u hact]
      have hpos : st n T u < ed n T u := (active_iff n T u hT).2 (by omega)
      rw [ed_eq n T u hact] at hpos
      have := seg_append op ha x 0 (st n T (u + 1) - 1) (i - st n T (u + 1))
      rw [show 0 + (st n T (u + 1) - 1) + 1 = st n T (u + 1) by omega] at this
      rw [this]; congr 1; omega
  · rw [k2 i hi, g2, f2]
    intro t _ hw
    have := ed_le n T t
    simp only [W1] at hw; omega
  · rw [k3, g3, f2]
    intro t _ hw; exact hw

/-! ### Exclusive scan -/

theorem excl_loop {α : Type} (op : α → α → α) (x : Nat → α) (a t m : Nat) (s : Mem α)
    (hr : s (.reg t) = x a) (hrd : ∀ k, k < m → s (.src (a + 1 + k)) = x (a + 1 + k)) :
    let s1 := exec ((List.range m).flatMap (fun k =>
      [assign (.out (a + 1 + k)) (fun s => s (.reg t)),
       assign (.reg t) (fun s => op (s (.reg t)) (s (.src (a + 1 + k))))])) s
    s1 (.reg t) = seg op x a m ∧ (∀ k, k < m → s1 (.out (a + 1 + k)) = seg op x a k) ∧
      (∀ l, l ≠ .reg t → (∀ k, k < m → l ≠ .out (a + 1 + k)) → s1 l = s l) := by
  induction m with
  | zero =>
    exact ⟨by simpa [exec, seg] using hr, fun k hk => by omega, fun l _ _ => by simp [exec]⟩
  | succ m ih =>
    obtain ⟨i1, i2, i3⟩ := ih (fun k hk => hrd k (by omega))
    dsimp only at i1 i2 i3 ⊢
    rw [List.range_succ, List.flatMap_append, exec_append]
    generalize exec (List.flatMap _ (List.range m)) s = s1 at i1 i2 i3 ⊢
    simp only [List.flatMap_cons, List.flatMap_nil, List.append_nil, exec_cons, exec_nil]
    have hx : s1 (.src (a + 1 + m)) = x (a + 1 + m) := by
      rw [i3 _ (by simp) (by simp), hrd m (by omega)]
    refine ⟨?_, ?_, ?_⟩
    · rw [assign_same, assign_ne _ _ _ _ (by simp), assign_ne _ _ _ _ (by simp), i1, hx, seg]
      congr 2; omega
    · intro k hk
      rw [assign_ne _ _ _ _ (by simp)]
      by_cases e : k = m
      · subst e; rw [assign_same, i1]
      · rw [assign_ne _ _ _ _ (by simp; omega), i2 k (by omega)]
    · intro l h1 h2
      rw [assign_ne _ _ _ _ h1, assign_ne _ _ _ _ (h2 m (by omega))]
      exact i3 l h1 (fun k hk => h2 k (by omega))

theorem exclLocal_foot {α : Type} (op : α → α → α) (init : α) (b : Bool) (n T t : Nat) :
    ∀ a ∈ exclLocal op init b n T t, Foot (R1 n T t) (W1 n T t) a := by
  intro a ha
  unfold exclLocal at ha
  split at ha
  case isFalse => simp at ha
  case isTrue h =>
    simp only [List.mem_append, List.mem_cons, List.not_mem_nil, or_false, List.mem_flatMap,
      List.mem_range] at ha
    rcases ha with ((rfl | rfl) | ⟨k, hk, rfl | rfl⟩) | rfl
    · exact foot_assign _ _ ⟨Nat.le_refl _, h⟩ (fun s s' hs => rfl)
    · exact foot_assign _ _ rfl (fun s s' hs => hs _ (R1_rd _ _ _ _ _ (Nat.le_refl _) h))
    · exact foot_assign _ _ ⟨by omega, by omega⟩ (fun s s' hs => hs _ rfl)
    · exact foot_assign _ _ rfl (fun s s' hs => by
        rw [hs (.reg t) rfl, hs _ (R1_rd _ _ _ _ _ (by omega) (by omega))])
    · exact foot_assign _ _ rfl (fun s s' hs => hs _ rfl)

theorem exclLocal_alone {α : Type} (op : α → α → α) (init : α) (x : Nat → α) (n T t : Nat)
    (s : Mem α) (h : st n T t < ed n T t)
    (hx : ∀ i, i < n → s (.src i) = x i) :
    let s1 := exec (exclLocal op init false n T t) s
    s1 (.reg t) = seg op x (st n T t) (ed n T t - 1 - st n T t) ∧
    s1 (.loc t) = seg op x (st n T t) (ed n T t - 1 - st n T t) ∧
    s1 (.out (st n T t)) = init ∧
    (∀ i, st n T t < i → i < ed n T t → s1 (.out i) = seg op x (st n T t) (i - 1 - st n T t)) := by
  have hle := ed_le n T t
  dsimp only
  rw [exclLocal, if_pos h, exec_append, exec_append]
  simp only [exec_cons, exec_nil]
  generalize st n T t = a at *
  generalize ed n T t = e at *
  have h1 : s (.src a) = x a := hx a (by omega)
  obtain ⟨l1, l2, l3⟩ := excl_loop op x a t (e - (a + 1))
    (assign (.reg t) (fun s => s (rd false a)) (assign (.out a) (fun _ => init) s))
    (by rw [assign_same]; simp only [rd]; exact (assign_ne _ _ _ _ (by simp)).trans h1)
    (by
      intro k hk
      rw [assign_ne _ _ _ _ (by simp), assign_ne _ _ _ _ (by simp)]
      exact hx _ (by omega))
  refine ⟨?_, ?_, ?_, ?_⟩
  · rw [assign_ne _ _ _ _ (by simp)]; exact l1.trans (by congr 1; omega)
  · rw [assign_same]; exact l1.trans (by congr 1; omega)
  · rw [assign_ne _ _ _ _ (by simp)]
    refine (l3 _ (by simp) (by simp; omega)).trans ?_
    rw [assign_ne _ _ _ _ (by simp), assign_same]
  · intro i hi1 hi2
    rw [assign_ne _ _ _ _ (by simp)]
    have := l2 (i - 1 - a) (by omega)
    rw [show a + 1 + (i - 1 - a) = i by omega] at this
    exact this

theorem seg_excl {α : Type} (op : α → α → α) (e : α) (he : ∀ a, op e a = a) (x : Nat → α) (i : Nat) :
    exclSpec op e x (i + 1) = seg op x 0 i := by
  induction i with
  | zero => simp [exclSpec, seg, he]
  | succ i ih => rw [exclSpec, ih, seg]; congr 2; omega

theorem exclusive_run {α : Type} (op : α → α → α) (ha : ∀ a b c, op (op a b) c = op a (op b c))
    (hc : ∀ a b, op a b = op b a) (e : α) (he : ∀ a, op e a = a) (x : Nat → α) (n T : Nat)
    (hT : 0 < T) (s s' : Mem α) (hx : ∀ i, i < n → s (.src i) = x i)
    (hr : Runs T (exclusiveScan op e false n T) s s') :
    (∀ i, i < n → s' (.out i) = exclSpec op e x i) ∧ (∀ i, n ≤ i → s' (.out i) = s (.out i)) ∧
      (∀ i, s' (.src i) = s (.src i)) := by
  unfold exclusiveScan at hr
  cases hr with
  | cons h1 hr =>
  rename_i sl
  obtain ⟨m, hr1, hr2⟩ := runs_append hr
  cases hr2 with
  | cons h3 hr2 =>
  cases hr2
  rename_i sa
  obtain ⟨f1, f2⟩ := exec_thread T (R1 n T) (W1 n T)
    (fun t u l _ _ hne hw => W1_R1 n T t u l hne hw) _
    (fun t _ => exclLocal_foot op e false n T t) sl h1 s
  have hinv : ∀ t, t < T → st n T t < n →
      exec sl s (.reg t) = blk op x n T t 1 ∧ exec sl s (.loc t) = blk op x n T t 1 := by
    intro t ht hact
    have hact' := (active_iff n T t hT).2 hact
    obtain ⟨a1, a2, _⟩ := exclLocal_alone op e x n T t s hact' hx
    rw [f1 t ht (.reg t) rfl, f1 t ht (.loc t) rfl]
    exact ⟨a1, a2⟩
  obtain ⟨g1, g2, g3⟩ := stride_run op ha hc x n T hT (T - 1) 1 (by omega) (by omega) _ _ hinv hr1
  obtain ⟨k1, k2, k3⟩ := addPrefix_run op n T m sa h3
  refine ⟨fun i hi => ?_, fun i hi => ?_, fun i => ?_⟩
  · obtain ⟨t, ht, hi1, hi2⟩ := seg_exists n T i hT hi
    have hact : st n T t < n := by omega
    rw [k1 t ht i hi1 hi2, g2, f1 t ht (.out i) ⟨hi1, hi2⟩]
    obtain ⟨_, _, x1, x2⟩ := exclLocal_alone op e x n T t s (by omega) hx
    have hout : exec (exclLocal op e false n T t) s (.out i) =
        if i = st n T t then e else seg op x (st n T t) (i - 1 - st n T t) := by
      split
      case isTrue h => rw [h]; exact x1
      case isFalse h => exact x2 i (by omega) hi2
    rw [hout]
    by_cases e0 : t = 0
    · subst e0
      rw [if_pos rfl, st_zero]
      split
      case isTrue h => subst h; rfl
      case isFalse h =>
        obtain ⟨j, rfl⟩ : ∃ j, i = j + 1 := ⟨i - 1, by omega⟩
        rw [seg_excl op e he]; rfl
    · rw [if_neg e0]
      obtain ⟨u, rfl⟩ : ∃ u, t = u + 1 := ⟨t - 1, by omega⟩
      have hm : st n T u ≤ st n T (u + 1) := st_mono _ _ (by omega)
      rw [show u + 1 - 1 = u by omega, g1 u (by omega) (by omega), ed_eq n T u hact]
      have hpos : st n T u < ed n T u := (active_iff n T u hT).2 (by omega)
      rw [ed_eq n T u hact] at hpos
      obtain ⟨j, rfl⟩ : ∃ j, i = j + 1 := ⟨i - 1, by omega⟩
      rw [seg_excl op e he]
      split
      case isTrue h => rw [he, ← h]; rfl
      case isFalse h =>
        rw [hc]
        have := seg_append op ha x 0 (st n T (u + 1) - 1) (j - st n T (u + 1))
        rw [show 0 + (st n T (u + 1) - 1) + 1 = st n T (u + 1) by omega] at this
        rw [show j + 1 - 1 - st n T (u + 1) = j - st n T (u + 1) by omega, this]; congr 1; omega
  · rw [k2 i hi, g2, f2]
    intro t _ hw
    have := ed_le n T t
    simp only [W1] at hw; omega
  · rw [k3, g3, f2]
    intro t _ hw; exact hw

/-! ### Reduction -/

/-- `init op x a op ... op x (a+k-1)`. -/
def fr {α : Type} (op : α → α → α) (init : α) (x : Nat → α) (a : Nat) : Nat → α
  | 0 => init
  | k + 1 => op (fr op init x a k) (x (a + k))

theorem fr_append {α : Type} (op : α → α → α) (ha : ∀ a b c, op (op a b) c = op a (op b c))
    (e : α) (he : ∀ a, op a e = a) (x : Nat → α) (a j k : Nat) :
    op (fr op e x a j) (fr op e x (a + j) k) = fr op e x a (j + k) := by
  induction k with
  | zero => exact he _
  | succ k ih =>
    rw [fr, ← ha, ih, show j + (k + 1) = (j + k) + 1 by omega, fr]
    congr 2; omega

theorem fr_excl {α : Type} (op : α → α → α) (e : α) (x : Nat → α) (n : Nat) :
    fr op e x 0 n = exclSpec op e x n := by
  induction n with
  | zero => rfl
  | succ n ih => rw [fr, exclSpec, ih]; simp

theorem red_loop {α : Type} (op : α → α → α) (init : α) (x : Nat → α) (a t m : Nat) (s : Mem α)
    (hr : s (.reg t) = init) (hx : ∀ k, k < m → s (.src (a + k)) = x (a + k)) :
    let s1 := exec ((List.range m).map (fun k =>
      assign (.reg t) (fun s : Mem α => op (s (.reg t)) (s (.src (a + k)))))) s
    s1 (.reg t) = fr op init x a m ∧ (∀ l, l ≠ .reg t → s1 l = s l) := by
  induction m with
  | zero => exact ⟨hr, fun l _ => rfl⟩
  | succ m ih =>
    obtain ⟨i1, i2⟩ := ih (fun k hk => hx k (by omega))
    dsimp only at i1 i2 ⊢
    rw [List.range_succ, List.map_append, exec_append]
    generalize exec (List.map _ (List.range m)) s = s1 at i1 i2 ⊢
    simp only [List.map_cons, List.map_nil, exec_cons, exec_nil]
    refine ⟨?_, fun l hl => ?_⟩
    · rw [assign_same, i1, i2 _ (by simp), hx m (by omega), fr]
    · rw [assign_ne _ _ _ _ hl, i2 l hl]

def Rr (t : Nat) : Loc → Prop
  | .src _ => True
  | .out _ => False
  | .reg u => u = t
  | .loc u => u = t

/-- Cut points of the segments. -/
def cut (n T t : Nat) : Nat := min (st n T t) n

theorem cut_mono (n T : Nat) {t u : Nat} (h : t ≤ u) : cut n T t ≤ cut n T u := by
  have := st_mono n T h
  unfold cut; omega

theorem redLocal_run {α : Type} (op : α → α → α) (init : α) (x : Nat → α) (n T : Nat)
    (s : Mem α) (hx : ∀ i, i < n → s (.src i) = x i)
    (sched : List (Mem α → Mem α)) (h : Interleave T (redLocal op init n T) sched) :
    ∀ t, t < T →
      exec sched s (.reg t) = fr op init x (cut n T t) (cut n T (t + 1) - cut n T t) ∧
      exec sched s (.loc t) = fr op init x (cut n T t) (cut n T (t + 1) - cut n T t) := by
  obtain ⟨h1, h2⟩ := exec_thread T Rr (fun t l => l = .reg t ∨ l = .loc t)
    (by
      intro t u l _ _ hne hw hr
      rcases hw with rfl | rfl <;> simp [Rr] at hr <;> omega)
    (redLocal op init n T)
    (by
      intro t _ a ha
      simp only [redLocal, List.mem_append, List.mem_cons, List.not_mem_nil, or_false, List.mem_map,
        List.mem_range] at ha
      rcases ha with rfl | ⟨k, hk, rfl⟩ | rfl
      · exact foot_assign _ _ (Or.inl rfl) (fun s s' hs => rfl)
      · exact foot_assign _ _ (Or.inl rfl) (fun s s' hs => by
          rw [hs (.reg t) rfl, hs (.src (st n T t + k)) trivial])
      · exact foot_assign _ _ (Or.inr rfl) (fun s s' hs => hs (.reg t) rfl)) sched h s
  intro t ht
  rw [h1 t ht (.reg t) rfl, h1 t ht (.loc t) rfl, redLocal, exec_cons, exec_append, exec_cons, exec_nil]
  have hle := ed_le n T t
  obtain ⟨l1, _⟩ := red_loop op init x (st n T t) t (ed n T t - st n T t)
    (assign (.reg t) (fun _ => init) s) (assign_same _ _ _)
    (by intro k hk; rw [assign_ne _ _ _ _ (by simp)]; exact hx _ (by omega))
  rw [assign_ne _ _ _ _ (by simp), assign_same, l1]
  have : fr op init x (st n T t) (ed n T t - st n T t) =
      fr op init x (cut n T t) (cut n T (t + 1) - cut n T t) := by
    unfold cut ed
    rw [st_succ]
    by_cases hs : st n T t ≤ n
    · rw [Nat.min_eq_left hs]; congr 1; split <;> omega
    · rw [show (if st n T t + nwork n T > n then n else st n T t + nwork n T) - st n T t = 0 by
        split <;> omega, show min (st n T t + nwork n T) n - min (st n T t) n = 0 by omega]
      rfl
  exact ⟨this, this⟩

theorem redGather_run {α : Type} (op : α → α → α) (T w : Nat) (s : Mem α)
    (sched : List (Mem α → Mem α)) (h : Interleave T (redGather op T w) sched) :
    (∀ t, t < T → exec sched s (.reg t) =
      if t + w < T then op (s (.reg t)) (s (.loc (t + w))) else s (.reg t)) ∧
    (∀ l, (∀ t, l ≠ .reg t) → exec sched s l = s l) := by
  obtain ⟨h1, h2⟩ := exec_thread T Rg Wg
    (by intro t u l _ _ hne hw hr; subst hw; simp [Rg] at hr; omega)
    (redGather op T w)
    (by
      intro t _ a ha
      unfold redGather at ha
      split at ha
      · simp only [List.mem_cons, List.not_mem_nil, or_false] at ha
        subst ha
        exact foot_assign _ _ rfl (fun s s' hs => by rw [hs (.reg t) rfl, hs (.loc (t + w)) trivial])
      · simp at ha) sched h s
  refine ⟨fun t ht => ?_, fun l hl => h2 l (fun t _ hw => hl t hw)⟩
  rw [h1 t ht (.reg t) rfl, redGather]
  split
  · rw [exec_cons, exec_nil, assign_same]
  · rfl

theorem redPublish_run {α : Type} (T w : Nat) (s : Mem α)
    (sched : List (Mem α → Mem α)) (h : Interleave T (redPublish T w) sched) :
    (∀ t, t < T → exec sched s (.loc t) = if t + w < T then s (.reg t) else s (.loc t)) ∧
    (∀ l, (∀ t, l ≠ .loc t) → exec sched s l = s l) := by
  obtain ⟨h1, h2⟩ := exec_thread T Rp Wp
    (by intro t u l _ _ hne hw hr; subst hw; simp [Rp] at hr; omega)
    (redPublish T w)
    (by
      intro t _ a ha
      unfold redPublish at ha
      split at ha
      · simp only [List.mem_cons, List.not_mem_nil, or_false] at ha
        subst ha
        exact foot_assign _ _ rfl (fun s s' hs => hs _ (Or.inl rfl))
      · simp at ha) sched h s
  refine ⟨fun t ht => ?_, fun l hl => h2 l (fun t _ hw => hl t hw)⟩
  rw [h1 t ht _ (Or.inr rfl), redPublish]
  split
  · rw [exec_cons, exec_nil, assign_same]
  · rfl

/-- Threads `t .. min (t+w) T - 1` combined. -/
def rblk {α : Type} (op : α → α → α) (e : α) (x : Nat → α) (n T t w : Nat) : α :=
  fr op e x (cut n T t) (cut n T (min (t + w) T) - cut n T t)

theorem red_stride {α : Type} (op : α → α → α) (ha : ∀ a b c, op (op a b) c = op a (op b c))
    (e : α) (he : ∀ a, op a e = a) (x : Nat → α) (n T : Nat) (hT : 0 < T) :
    ∀ (k w : Nat), T - w ≤ k → 0 < w → ∀ s s' : Mem α,
    (∀ t, t < T → s (.reg t) = rblk op e x n T t w ∧ s (.loc t) = rblk op e x n T t w) →
    Runs T ((strides T w).flatMap fun w => [redGather op T w, redPublish T w]) s s' →
    s' (.reg 0) = fr op e x 0 (cut n T T) ∧ (∀ i, s' (.out i) = s (.out i)) := by
  have fin : ∀ w, T ≤ w → rblk op e x n T 0 w = fr op e x 0 (cut n T T) := by
    intro w hw
    have : cut n T 0 = 0 := by simp [cut, st_zero]
    rw [rblk, this, show min (0 + w) T = T by omega]; rfl
  intro k
  induction k with
  | zero =>
    intro w hk hw s s' hinv hr
    rw [strides, dif_neg (by omega)] at hr
    cases hr
    exact ⟨by rw [(hinv 0 hT).1, fin w (by omega)], fun _ => rfl⟩
  | succ k ih =>
    intro w hk hw s s' hinv hr
    rw [strides] at hr
    split at hr
    case isFalse hlt =>
      cases hr
      exact ⟨by rw [(hinv 0 hT).1, fin w (by omega)], fun _ => rfl⟩
    case isTrue hlt =>
      rw [List.flatMap_cons] at hr
      obtain ⟨m, hr1, hr2⟩ := runs_append hr
      cases hr1 with
      | cons hg hr1 =>
      cases hr1 with
      | cons hp hr1 =>
      cases hr1
      rename_i sg sp
      obtain ⟨g1, g2⟩ := redGather_run op T w s sg hg
      obtain ⟨p1, p2⟩ := redPublish_run T w (exec sg s) sp hp
      have key : ∀ t, t < T →
          exec sp (exec sg s) (.reg t) = rblk op e x n T t (w * 2) ∧
          exec sp (exec sg s) (.loc t) = rblk op e x n T t (w * 2) := by
        intro t ht
        rw [p2 (.reg t) (by simp), p1 t ht, g1 t ht, g2 (.loc t) (by simp)]
        by_cases h : t + w < T
        · rw [if_pos h, if_pos h, (hinv t ht).1, (hinv (t + w) h).2]
          have : op (rblk op e x n T t w) (rblk op e x n T (t + w) w) =
              rblk op e x n T t (w * 2) := by
            unfold rblk
            rw [show min (t + w) T = t + w by omega, show t + w + w = t + w * 2 by omega]
            have c1 := cut_mono n T (show t ≤ t + w by omega)
            have c2 := cut_mono n T (show t + w ≤ min (t + w * 2) T by omega)
            have := fr_append op ha e he x (cut n T t) (cut n T (t + w) - cut n T t)
              (cut n T (min (t + w * 2) T) - cut n T (t + w))
            rw [show cut n T t + (cut n T (t + w) - cut n T t) = cut n T (t + w) by omega] at this
            rw [this]; congr 1; omega
          exact ⟨this, this⟩
        · rw [if_neg h, if_neg h, (hinv t ht).1, (hinv t ht).2, rblk, rblk,
            show min (t + w) T = T by omega, show min (t + w * 2) T = T by omega]
          exact ⟨rfl, rfl⟩
      obtain ⟨r1, r2⟩ := ih (w * 2) (by omega) (by omega) _ s' key hr2
      exact ⟨r1, fun i => by rw [r2, p2 _ (by simp), g2 _ (by simp)]⟩

theorem reduce_run {α : Type} (op : α → α → α) (ha : ∀ a b c, op (op a b) c = op a (op b c))
    (e : α) (he : ∀ a, op a e = a) (x : Nat → α) (n T : Nat) (hT : 0 < T) (s s' : Mem α)
    (hx : ∀ i, i < n → s (.src i) = x i) (hr : Runs T (reducePar op e n T) s s') :
    s' (.out 0) = exclSpec op e x n := by
  unfold reducePar at hr
  cases hr with
  | cons h1 hr =>
  rename_i sl
  obtain ⟨m, hr1, hr2⟩ := runs_append hr
  cases hr2 with
  | cons h3 hr2 =>
  cases hr2
  rename_i sa
  have hl := redLocal_run op e x n T s hx sl h1
  have hinv : ∀ t, t < T → exec sl s (.reg t) = rblk op e x n T t 1 ∧
      exec sl s (.loc t) = rblk op e x n T t 1 := by
    intro t ht
    unfold rblk
    rw [show min (t + 1) T = t + 1 by omega]
    exact hl t ht
  obtain ⟨g1, _⟩ := red_stride op ha e he x n T hT (T - 1) 1 (by omega) (by omega) _ _ hinv hr1
  obtain ⟨k1, _⟩ := exec_thread T (fun t l => t = 0 ∧ (l = .reg 0 ∨ l = .out 0))
    (fun t l => t = 0 ∧ l = .out 0)
    (by intro t u l _ _ hne hw hr'; omega)
    (fun t => redStore t)
    (by
      intro t _ a ha
      simp only [redStore] at ha
      split at ha
      case isFalse => simp at ha
      case isTrue h =>
        simp only [List.mem_cons, List.not_mem_nil, or_false] at ha
        subst ha
        exact foot_assign _ _ ⟨h, rfl⟩ (fun s s' hs => hs _ ⟨h, Or.inl rfl⟩)) sa h3 m
  rw [k1 0 hT (.out 0) ⟨rfl, Or.inr rfl⟩]
  simp only [redStore, if_true, exec_cons, exec_nil]
  rw [assign_same, g1, ← fr_excl]
  have := le_nwork_mul n T hT
  congr 1
  unfold cut st
  omega

/-! ### Sequential policy -/

theorem seqInclusive_run {α : Type} (op : α → α → α) (b : Bool) (x : Nat → α) (n : Nat) (s : Mem α)
    (hx : ∀ i, i < n → s (rd b i) = x i) :
    (∀ i, i < n → exec (seqInclusive op b n) s (.out i) = inclSpec op x i) ∧
    (∀ i, n ≤ i → exec (seqInclusive op b n) s (.out i) = s (.out i)) ∧
    (∀ i, exec (seqInclusive op b n) s (.src i) = s (.src i)) := by
  unfold seqInclusive
  by_cases h : n = 0
  · subst h; simp [exec]
  rw [if_neg h, exec_append]
  simp only [exec_cons, exec_nil]
  have h0 := hx 0 (by omega)
  obtain ⟨l1, l2, l3⟩ := incl_loop op b x 0 0 (n - 1)
    (assign (.reg 0) (fun s => s (.out 0)) (assign (.out 0) (fun s => s (rd b 0)) s))
    (by rw [assign_same, assign_same, h0])
    (by rw [assign_ne _ _ _ _ (by simp), assign_same, h0])
    (by
      intro k hk
      rw [assign_ne _ _ _ _ (rd_ne_reg _ _ _), assign_ne _ _ _ _ (by cases b <;> simp [rd])]
      exact hx _ (by omega))
  have e : (fun k => [assign (.reg 0) (fun s : Mem α => op (s (.reg 0)) (s (rd b (0 + 1 + k)))),
       assign (.out (0 + 1 + k)) (fun s => s (.reg 0))]) =
      (fun k => [assign (.reg 0) (fun s : Mem α => op (s (.reg 0)) (s (rd b (k + 1)))),
       assign (.out (k + 1)) (fun s => s (.reg 0))]) := by
    funext k; rw [show 0 + 1 + k = k + 1 by omega]
  rw [e] at l1 l2 l3
  refine ⟨fun i hi => ?_, fun i hi => ?_, fun i => ?_⟩
  · have := l2 i (by omega)
    rw [Nat.zero_add] at this
    rw [this, seg_incl]
  · rw [l3 _ (by simp) (by simp; omega), assign_ne _ _ _ _ (by simp), assign_ne _ _ _ _ (by simp; omega)]
  · rw [l3 _ (by simp) (by simp), assign_ne _ _ _ _ (by simp), assign_ne _ _ _ _ (by simp)]

theorem seqExclusive_run {α : Type} (op : α → α → α) (init : α) (x : Nat → α) (n : Nat) (s : Mem α)
    (hx : ∀ i, i < n → s (.src i) = x i) :
    (∀ i, i < n → exec (seqExclusive op init false n) s (.out i) = exclSpec op init x i) ∧
    (∀ i, n ≤ i → exec (seqExclusive op init false n) s (.out i) = s (.out i)) ∧
    (∀ i, exec (seqExclusive op init false n) s (.src i) = s (.src i)) := by
  unfold seqExclusive
  by_cases h : n = 0
  · subst h
    simp only [if_true, exec_cons, exec_nil]
    exact ⟨fun i hi => by omega, fun i _ => assign_ne _ _ _ _ (by simp),
      fun i => assign_ne _ _ _ _ (by simp)⟩
  rw [if_neg h, exec_cons, exec_cons]
  have key : ∀ m, m ≤ n - 1 → ∀ s0 : Mem α, s0 (.reg 0) = init → s0 (.out 0) = init →
      (∀ i, i < n → s0 (.src i) = x i) →
      let s1 := exec ((List.range m).flatMap (fun k =>
        [assign (.reg 0) (fun s => op (s (.reg 0)) (s (rd false k))),
         assign (.out (k + 1)) (fun s => s (.reg 0))])) s0
      s1 (.reg 0) = exclSpec op init x m ∧ (∀ k, k ≤ m → s1 (.out k) = exclSpec op init x k) ∧
      (∀ k, m < k → s1 (.out k) = s0 (.out k)) ∧ (∀ k, s1 (.src k) = s0 (.src k)) := by
    intro m
    induction m with
    | zero =>
      intro _ s0 h1 h2 _
      refine ⟨h1, ?_, fun _ _ => rfl, fun _ => rfl⟩
      intro k hk
      obtain rfl : k = 0 := by omega
      exact h2
    | succ m ih =>
      intro hm s0 h1 h2 h3
      obtain ⟨i1, i2, i3, i4⟩ := ih (by omega) s0 h1 h2 h3
      dsimp only at i1 i2 i3 i4 ⊢
      rw [List.range_succ, List.flatMap_append, exec_append]
      generalize exec (List.flatMap _ (List.range m)) s0 = s1 at i1 i2 i3 i4 ⊢
      simp only [List.flatMap_cons, List.flatMap_nil, List.append_nil, exec_cons, exec_nil]
      have hv : op (s1 (.reg 0)) (s1 (rd false m)) = exclSpec op init x (m + 1) := by
        rw [i1, exclSpec]; simp only [rd]
        exact congrArg _ ((i4 m).trans (h3 m (by omega)))
      refine ⟨?_, ?_, ?_, ?_⟩
      · rw [assign_ne _ _ _ _ (by simp), assign_same, hv]
      · intro k hk
        by_cases e : k = m + 1
        · subst e; rw [assign_same, assign_same, hv]
        · rw [assign_ne _ _ _ _ (by simpa using e), assign_ne _ _ _ _ (by simp), i2 k (by omega)]
      · intro k hk
        rw [assign_ne _ _ _ _ (by simp; omega), assign_ne _ _ _ _ (by simp), i3 k (by omega)]
      · intro k
        rw [assign_ne _ _ _ _ (by simp), assign_ne _ _ _ _ (by simp), i4]
  obtain ⟨_, k2, k3, k4⟩ := key (n - 1) (Nat.le_refl _)
    (assign (.out 0) (fun s => s (.reg 0)) (assign (.reg 0) (fun _ => init) s))
    (by rw [assign_ne _ _ _ _ (by simp), assign_same]) (by rw [assign_same, assign_same])
    (by intro i hi; rw [assign_ne _ _ _ _ (by simp), assign_ne _ _ _ _ (by simp), hx i hi])
  refine ⟨fun i hi => k2 i (by omega), fun i hi => ?_, fun i => ?_⟩
  · rw [k3 i (by omega), assign_ne _ _ _ _ (by simp; omega), assign_ne _ _ _ _ (by simp)]
  · rw [k4, assign_ne _ _ _ _ (by simp), assign_ne _ _ _ _ (by simp)]

theorem seqReduce_run {α : Type} (op : α → α → α) (init : α) (x : Nat → α) (n : Nat) (s : Mem α)
    (hx : ∀ i, i < n → s (.src i) = x i) :
    exec (seqReduce op init n) s (.out 0) = exclSpec op init x n := by
  rw [seqReduce, exec_cons, exec_append, exec_cons, exec_nil, assign_same]
  have := (red_loop op init x 0 0 n (assign (.reg 0) (fun _ => init) s) (assign_same _ _ _)
    (by intro k hk; rw [assign_ne _ _ _ _ (by simp)]; exact hx _ (by omega))).1
  simp only [Nat.zero_add] at this
  rw [this, fr_excl]

end Verif.Scan
