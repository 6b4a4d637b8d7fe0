import Verif.Model.Radix
import Verif.Proof.Sort
import Verif.Proof.Scan
import Mathlib.Data.Fintype.EquivFin
import Mathlib.Data.Fintype.Card
namespace Verif.Radix
open Verif.Phase Verif.Sort

variable {w : Nat} {V : Type}

theorem put_same (l : Loc) (e : Mem w V → Cell w V) (s : Mem w V) : put l e s l = e s :=
  upd_same _ _ _

theorem put_ne (l l' : Loc) (e : Mem w V → Cell w V) (s : Mem w V) (h : l' ≠ l) :
    put l e s l' = s l' := upd_ne _ _ _ _ h

/-! ### Counting -/

/-- Number of `j < i` with `d j = x`. -/
def cnt (d : Nat → Nat) (x : Nat) : Nat → Nat
  | 0 => 0
  | i + 1 => cnt d x i + if d i = x then 1 else 0

/-- Number of `j < n` with `d j < x`. -/
def offs (d : Nat → Nat) (n : Nat) : Nat → Nat
  | 0 => 0
  | x + 1 => offs d n x + cnt d x n

/-- Target position of element `i`. -/
def pos (d : Nat → Nat) (n i : Nat) : Nat := offs d n (d i) + cnt d (d i) i

theorem cnt_mono (d : Nat → Nat) (x : Nat) {i j : Nat} (h : i ≤ j) : cnt d x i ≤ cnt d x j := by
  induction j with
  | zero => obtain rfl : i = 0 := by omega
            exact Nat.le_refl _
  | succ j ih =>
    by_cases e : i = j + 1
    · subst e; exact Nat.le_refl _
    · have := ih (by omega)
      rw [cnt]; omega

theorem cnt_lt (d : Nat → Nat) {i j : Nat} (h : i < j) : cnt d (d i) i < cnt d (d i) j := by
  have := cnt_mono d (d i) (show i + 1 ≤ j from h)
  rw [cnt, if_pos rfl] at this
  omega

theorem cnt_le (d : Nat → Nat) (x i : Nat) : cnt d x i ≤ i := by
  induction i with
  | zero => exact Nat.le_refl _
  | succ i ih => rw [cnt]; split <;> omega

theorem cnt_full (d : Nat → Nat) (x n : Nat) (h : cnt d x n = n) : ∀ i, i < n → d i = x := by
  induction n with
  | zero => intro i hi; omega
  | succ n ih =>
    rw [cnt] at h
    have := cnt_le d x n
    intro i hi
    split at h
    case isTrue e =>
      by_cases e' : i = n
      · rw [e', e]
      · exact ih (by omega) i (by omega)
    case isFalse => omega

theorem cnt_congr (d d' : Nat → Nat) (x n : Nat) (h : ∀ i, i < n → d i = d' i) :
    cnt d x n = cnt d' x n := by
  induction n with
  | zero => rfl
  | succ n ih => rw [cnt, cnt, ih (fun i hi => h i (by omega)), h n (by omega)]

theorem offs_mono (d : Nat → Nat) (n : Nat) {x y : Nat} (h : x ≤ y) : offs d n x ≤ offs d n y := by
  induction y with
  | zero => obtain rfl : x = 0 := by omega
            exact Nat.le_refl _
  | succ y ih =>
    by_cases e : x = y + 1
    · subst e; exact Nat.le_refl _
    · have := ih (by omega)
      rw [offs]; omega

theorem offs_add (d : Nat → Nat) (n x : Nat) :
    offs d (n + 1) x = offs d n x + if d n < x then 1 else 0 := by
  induction x with
  | zero => simp [offs]
  | succ x ih =>
    rw [offs, offs, ih, cnt]
    by_cases h : d n = x
    · rw [if_neg (by omega), if_pos h, if_pos (by omega)]; omega
    · rw [if_neg h]
      by_cases h2 : d n < x
      · rw [if_pos h2, if_pos (by omega)]; omega
      · rw [if_neg h2, if_neg (by omega)]; omega

theorem offs_total (d : Nat → Nat) (n B : Nat) (h : ∀ i, i < n → d i < B) : offs d n B = n := by
  induction n with
  | zero =>
    clear h
    induction B with
    | zero => rfl
    | succ B ih => rw [offs, ih]; rfl
  | succ n ih =>
    rw [offs_add, ih (fun i hi => h i (by omega)), if_pos (h n (by omega))]

theorem pos_lt_of_digit (d : Nat → Nat) (n i j : Nat) (hi : i < n) (h : d i < d j) :
    pos d n i < pos d n j := by
  unfold pos
  have h1 := cnt_lt d hi
  have h2 := offs_mono d n (show d i + 1 ≤ d j from h)
  rw [offs] at h2
  omega

theorem pos_lt_iff (d : Nat → Nat) (n i j : Nat) (hi : i < n) (hj : j < n) :
    pos d n i < pos d n j ↔ d i < d j ∨ (¬ d j < d i ∧ i < j) := by
  rcases Nat.lt_trichotomy (d i) (d j) with h | h | h
  · exact ⟨fun _ => Or.inl h, fun _ => pos_lt_of_digit d n i j hi h⟩
  · have key : ∀ a b, d a = d b → a < b → pos d n a < pos d n b := by
      intro a b e hab
      unfold pos
      have := cnt_lt d hab
      rw [← e]; omega
    rcases Nat.lt_trichotomy i j with h' | h' | h'
    · exact ⟨fun _ => Or.inr ⟨by omega, h'⟩, fun _ => key i j h h'⟩
    · subst h'; constructor
      · intro hh; omega
      · intro hh; omega
    · have := key j i h.symm h'
      constructor
      · intro hh; omega
      · intro hh; omega
  · have := pos_lt_of_digit d n j i hj h
    constructor
    · intro hh; omega
    · intro hh; omega

theorem pos_lt (d : Nat → Nat) (n B i : Nat) (h : ∀ i, i < n → d i < B) (hi : i < n) :
    pos d n i < n := by
  have h1 := cnt_lt d hi
  have h2 := offs_mono d n (show d i + 1 ≤ B from h i hi)
  rw [offs, offs_total d n B h] at h2
  unfold pos; omega

theorem pos_inj (d : Nat → Nat) (n i j : Nat) (hi : i < n) (hj : j < n)
    (h : pos d n i = pos d n j) : i = j := by
  have h1 := pos_lt_iff d n i j hi hj
  have h2 := pos_lt_iff d n j i hj hi
  rw [h] at h1 h2
  omega

/-- An injection of `[0,n)` into itself is onto. -/
theorem surj_of_inj (n : Nat) (f : Nat → Nat) (h1 : ∀ i, i < n → f i < n)
    (h2 : ∀ i j, i < n → j < n → f i = f j → i = j) : ∀ k, k < n → ∃ i, i < n ∧ f i = k := by
  intro k hk
  let g : Fin n → Fin n := fun i => ⟨f i, h1 i i.2⟩
  have hg : Function.Injective g := by
    intro i j hij
    exact Fin.ext (h2 i j i.2 j.2 (congrArg Fin.val hij))
  obtain ⟨i, hi⟩ := (Finite.injective_iff_surjective.mp hg) ⟨k, hk⟩
  exact ⟨i, i.2, congrArg Fin.val hi⟩

/-! ### Segments -/

theorem lo_eq (n T t : Nat) : lo n T t = Scan.st n T t := rfl

theorem hi_eq (n T t : Nat) : hi n T t = Scan.ed n T t := rfl

/-- Boundary between the elements of threads `t - 1` and `t`. -/
def cut (n T t : Nat) : Nat := min (lo n T t) n

theorem cut_zero (n T : Nat) : cut n T 0 = 0 := by simp [cut, lo]

theorem cut_mono (n T : Nat) {t u : Nat} (h : t ≤ u) : cut n T t ≤ cut n T u :=
  Scan.cut_mono n T h

theorem cut_last (n T : Nat) (hT : 0 < T) : cut n T T = n := by
  have := Scan.le_nwork_mul n T hT
  unfold cut lo
  unfold Scan.nwork at this
  omega

theorem cut_le (n T t : Nat) : cut n T t ≤ n := by unfold cut; omega

theorem cut_lo (n T t : Nat) (h : lo n T t < n) : cut n T t = lo n T t := by unfold cut; omega

theorem cut_hi (n T t : Nat) (_h : lo n T t < n) : cut n T (t + 1) = hi n T t := by
  unfold cut hi
  rw [lo_eq, lo_eq, Scan.st_succ]
  change min (Scan.st n T t + Scan.nwork n T) n =
    if Scan.st n T t + Scan.nwork n T > n then n else Scan.st n T t + Scan.nwork n T
  split <;> omega

theorem cut_idle (n T t : Nat) (h : ¬ lo n T t < n) : cut n T t = n ∧ cut n T (t + 1) = n := by
  have h1 : cut n T t = n := by unfold cut; omega
  have := cut_mono n T (show t ≤ t + 1 by omega)
  have := cut_le n T (t + 1)
  omega

theorem cut_exists (n T i : Nat) (hT : 0 < T) (hi' : i < n) :
    ∃ t, t < T ∧ cut n T t ≤ i ∧ i < cut n T (t + 1) := by
  obtain ⟨t, ht, h1, h2⟩ := Scan.seg_exists n T i hT hi'
  have hlt : lo n T t < n := by rw [lo_eq]; omega
  refine ⟨t, ht, ?_, ?_⟩
  · rw [cut_lo n T t hlt]; exact h1
  · rw [cut_hi n T t hlt]; exact h2

/-! ### Counting phase -/

/-- Digits of the elements of a buffer. -/
def dg (signed b : Bool) (st mask : Nat) (s : Mem w V) (i : Nat) : Nat :=
  digit signed st mask (s (.buf b i))

theorem count_loop (signed b : Bool) (st mask t l m : Nat) (s : Mem w V) :
    let s1 := exec ((List.range' l m).map (fun i s =>
      put (.bin t (digit signed st mask (s (.buf b i))))
        (fun s => .num ((s (.bin t (digit signed st mask (s (.buf b i))))).nat + 1)) s)) s
    (∀ x, (s1 (.bin t x)).nat = (s (.bin t x)).nat +
      (cnt (dg signed b st mask s) x (l + m) - cnt (dg signed b st mask s) x l)) ∧
    (∀ l, (∀ x, l ≠ .bin t x) → s1 l = s l) := by
  induction m with
  | zero => simp [exec]
  | succ m ih =>
    obtain ⟨i1, i2⟩ := ih
    dsimp only at i1 i2 ⊢
    rw [List.range'_1_concat, List.map_append, exec_append]
    generalize exec (List.map _ (List.range' l m)) s = s1 at i1 i2 ⊢
    simp only [List.map_cons, List.map_nil, exec_cons, exec_nil]
    have hb : s1 (.buf b (l + m)) = s (.buf b (l + m)) := i2 _ (by simp)
    rw [hb]
    have hd : digit signed st mask (s (.buf b (l + m))) = dg signed b st mask s (l + m) := rfl
    rw [hd]
    refine ⟨fun x => ?_, fun l' hl => ?_⟩
    · have hm := cnt_mono (dg signed b st mask s) x (show l ≤ l + m by omega)
      rw [show l + (m + 1) = (l + m) + 1 by omega, cnt]
      by_cases e : dg signed b st mask s (l + m) = x
      · rw [if_pos e, ← e, put_same]
        simp only [Cell.nat.eq_1, hb]
        rw [hd, i1 _, e]; omega
      · rw [if_neg e, put_ne _ _ _ _ (by simpa using fun h => e h.symm), i1 x]; omega
    · rw [put_ne _ _ _ _ (hl _), i2 l' hl]

theorem zero_loop (t m : Nat) (s : Mem w V) :
    let s1 := exec ((List.range m).map (fun d => put (.bin t d) (fun _ : Mem w V => .num 0))) s
    (∀ x, x < m → (s1 (.bin t x)).nat = 0) ∧ (∀ l, (∀ x, l ≠ .bin t x) → s1 l = s l) := by
  induction m with
  | zero => exact ⟨fun x hx => by omega, fun l _ => rfl⟩
  | succ m ih =>
    obtain ⟨i1, i2⟩ := ih
    dsimp only at i1 i2 ⊢
    rw [List.range_succ, List.map_append, exec_append]
    generalize exec (List.map _ (List.range m)) s = s1 at i1 i2 ⊢
    simp only [List.map_cons, List.map_nil, exec_cons, exec_nil]
    refine ⟨fun x hx => ?_, fun l hl => ?_⟩
    · by_cases e : x = m
      · subst e; rw [put_same]; rfl
      · rw [put_ne _ _ _ _ (by simpa using e), i1 x (by omega)]
    · rw [put_ne _ _ _ _ (hl m), i2 l hl]

theorem count_run (signed b : Bool) (n T st mask bins : Nat) (s : Mem w V)
    (sched : List (Mem w V → Mem w V)) (h : Interleave T (count signed b n T st mask bins) sched) :
    (∀ t x, t < T → x < bins → (exec sched s (.bin t x)).nat =
      cnt (dg signed b st mask s) x (cut n T (t + 1)) - cnt (dg signed b st mask s) x (cut n T t)) ∧
    (∀ l, (∀ t x, l ≠ .bin t x) → exec sched s l = s l) := by
  obtain ⟨h1, h2⟩ := exec_thread T
    (fun t l => (∃ x, l = .bin t x) ∨ ∃ i, l = .buf b i) (fun t l => ∃ x, l = .bin t x)
    (by
      rintro t u l _ _ hne ⟨x, rfl⟩ (⟨y, hy⟩ | ⟨i, hi⟩)
      · simp at hy; omega
      · simp at hi)
    (count signed b n T st mask bins)
    (by
      intro t _ a ha
      simp only [count, List.mem_append, List.mem_map, List.mem_range] at ha
      rcases ha with ⟨d, _, rfl⟩ | ha
      · constructor
        · intro s l hl; exact put_ne _ _ _ _ (fun e => hl ⟨d, e⟩)
        · intro s s' hs l hl
          by_cases e : l = .bin t d
          · subst e; rw [put_same, put_same]
          · rw [put_ne _ _ _ _ e, put_ne _ _ _ _ e]; exact hs l hl
      · split at ha
        case isFalse => simp at ha
        case isTrue =>
          simp only [List.mem_map] at ha
          obtain ⟨i, _, rfl⟩ := ha
          constructor
          · intro s l hl; exact put_ne _ _ _ _ (fun e => hl ⟨_, e⟩)
          · intro s s' hs l hl
            have hb : s (.buf b i) = s' (.buf b i) := hs _ (Or.inr ⟨i, rfl⟩)
            rw [hb]
            by_cases e : l = .bin t (digit signed st mask (s' (.buf b i)))
            · subst e; rw [put_same, put_same, hb, hs _ (Or.inl ⟨_, rfl⟩)]
            · rw [put_ne _ _ _ _ e, put_ne _ _ _ _ e]; exact hs l hl) sched h s
  refine ⟨fun t x ht hx => ?_, fun l hl => h2 l (fun t _ ⟨x, e⟩ => hl t x e)⟩
  rw [h1 t ht (.bin t x) (Or.inl ⟨x, rfl⟩), count, exec_append]
  obtain ⟨z1, z2⟩ := zero_loop t bins s
  generalize exec (List.map _ (List.range bins)) s = s0 at z1 z2 ⊢
  have hdg : dg signed b st mask s0 = dg signed b st mask s := by
    funext i; simp only [dg]; rw [z2 _ (by simp)]
  by_cases hlt : lo n T t < n
  · rw [if_pos hlt]
    have := (count_loop signed b st mask t (lo n T t) (hi n T t - lo n T t) s0).1 x
    rw [this, z1 x hx, hdg, cut_lo n T t hlt, cut_hi n T t hlt]
    have h3 := cut_mono n T (show t ≤ t + 1 by omega)
    rw [cut_lo n T t hlt, cut_hi n T t hlt] at h3
    rw [show lo n T t + (hi n T t - lo n T t) = hi n T t by omega]; omega
  · rw [if_neg hlt, exec_nil, z1 x hx, (cut_idle n T t hlt).1, (cut_idle n T t hlt).2]; omega

/-! ### Single section -/

theorem sumBin_spec (T d : Nat) (s : Mem w V) (f : Nat → Nat) (hf0 : f 0 = 0)
    (hf : ∀ j, j < T → (s (.bin j d)).nat + f j = f (j + 1)) :
    ((sumBin T d s) (.glob d)).nat = f T ∧ ∀ l, l ≠ .glob d → sumBin T d s l = s l := by
  unfold sumBin
  induction T with
  | zero =>
    refine ⟨?_, fun l hl => put_ne _ _ _ _ hl⟩
    simp only [List.range_zero, List.foldl_nil]
    rw [put_same, hf0]; rfl
  | succ T ih =>
    obtain ⟨i1, i2⟩ := ih (fun j hj => hf j (by omega))
    rw [List.range_succ, List.foldl_append]
    generalize List.foldl _ _ (List.range T) = s1 at i1 i2 ⊢
    simp only [List.foldl_cons, List.foldl_nil]
    refine ⟨?_, fun l hl => ?_⟩
    · rw [put_same]
      simp only [Cell.nat.eq_1]
      rw [i1, i2 _ (by simp), ← hf T (by omega)]; omega
    · rw [put_ne _ _ _ _ hl, i2 l hl]

theorem reduceBins_spec (n T : Nat) (hT : 0 < T) (d : Nat → Nat) (ds : List Nat) (s s' : Mem w V)
    (r : Bool) (hds : ds.Nodup)
    (hb : ∀ j x, j < T → x ∈ ds → (s (.bin j x)).nat =
      cnt d x (cut n T (j + 1)) - cnt d x (cut n T j))
    (h : reduceBins n T ds s = (r, s')) :
    (∀ l, (∀ x, l ≠ .glob x) → s' l = s l) ∧ (∀ x, x ∉ ds → s' (.glob x) = s (.glob x)) ∧
    (r = true → ∃ x, cnt d x n = n) ∧
    (r = false → ∀ x ∈ ds, (s' (.glob x)).nat = cnt d x n) := by
  induction ds generalizing s with
  | nil =>
    simp only [reduceBins, Prod.mk.injEq] at h
    obtain ⟨rfl, rfl⟩ := h
    exact ⟨fun l _ => rfl, fun x _ => rfl, by simp, by simp⟩
  | cons a ds ih =>
    obtain ⟨s1, s2⟩ := sumBin_spec T a s (fun j => cnt d a (cut n T j))
      (by simp [cut_zero, cnt])
      (by
        intro j hj
        rw [hb j a hj (by simp)]
        have := cnt_mono d a (cut_mono n T (show j ≤ j + 1 by omega))
        omega)
    rw [cut_last n T hT] at s1
    rw [reduceBins, s1] at h
    rw [List.nodup_cons] at hds
    split at h
    case isTrue e =>
      simp only [Prod.mk.injEq] at h
      obtain ⟨rfl, rfl⟩ := h
      exact ⟨fun l hl => s2 l (hl a), fun x hx => s2 _ (by simp at hx ⊢; exact hx.1),
        fun _ => ⟨a, e⟩, by simp⟩
    case isFalse e =>
      obtain ⟨j1, j2, j3, j4⟩ := ih _ hds.2
        (by intro j x hj hx; rw [s2 _ (by simp)]; exact hb j x hj (by simp [hx])) h
      refine ⟨fun l hl => by rw [j1 l hl, s2 l (hl a)], fun x hx => ?_, j3, fun hr x hx => ?_⟩
      · simp only [List.mem_cons, not_or] at hx
        rw [j2 x hx.2, s2 _ (by simpa using hx.1)]
      · rcases List.mem_cons.mp hx with rfl | hx
        · rw [j2 x hds.1, s1]
        · exact j4 hr x hx

theorem offsets_spec (n bins : Nat) (d : Nat → Nat) (s : Mem w V)
    (hg : ∀ x, x < bins → (s (.glob x)).nat = cnt d x n) :
    (∀ x, x < bins → ((offsets bins s) (.off x)).nat = offs d n x) ∧
    (∀ l, (∀ x, l ≠ .off x) → offsets bins s l = s l) := by
  unfold offsets
  have key : ∀ m, m ≤ bins - 1 →
      let s1 := (List.range' 1 m).foldl (fun s i =>
        put (.off i) (fun s => .num ((s (.off (i - 1))).nat + (s (.glob (i - 1))).nat)) s)
        (put (.off 0) (fun _ => .num 0) s)
      (∀ x, x ≤ m → (s1 (.off x)).nat = offs d n x) ∧ (∀ l, (∀ x, l ≠ .off x) → s1 l = s l) := by
    intro m
    induction m with
    | zero =>
      intro _
      refine ⟨fun x hx => ?_, fun l hl => put_ne _ _ _ _ (hl 0)⟩
      obtain rfl : x = 0 := by omega
      simp only [List.range'_zero, List.foldl_nil]
      rw [put_same]; rfl
    | succ m ih =>
      intro hm
      obtain ⟨i1, i2⟩ := ih (by omega)
      dsimp only at i1 i2 ⊢
      rw [List.range'_1_concat, List.foldl_append]
      generalize List.foldl _ _ (List.range' 1 m) = s1 at i1 i2 ⊢
      simp only [List.foldl_cons, List.foldl_nil]
      refine ⟨fun x hx => ?_, fun l hl => by rw [put_ne _ _ _ _ (hl _), i2 l hl]⟩
      by_cases e : x = m + 1
      · subst e
        rw [Nat.add_comm 1 m, put_same]
        simp only [Cell.nat.eq_1, Nat.add_sub_cancel]
        rw [i1 m (by omega), i2 _ (by simp), hg m (by omega), offs]
      · rw [put_ne _ _ _ _ (by simp; omega), i1 x (by omega)]
  obtain ⟨k1, k2⟩ := key (bins - 1) (Nat.le_refl _)
  exact ⟨fun x hx => k1 x (by omega), k2⟩

theorem localOffsets_spec (T bins : Nat) (hT : 0 < T) (f : Nat → Nat → Nat) (s : Mem w V)
    (h0 : ∀ x, x < bins → (s (.off x)).nat = f 0 x)
    (hb : ∀ j x, j < T → x < bins → (s (.bin j x)).nat + f j x = f (j + 1) x) :
    (∀ j x, j < T → x < bins → ((localOffsets T bins s) (.bin j x)).nat = f (j + 1) x) ∧
    (∀ l, (∀ j x, l ≠ .bin j x) → localOffsets T bins s l = s l) := by
  have inner : ∀ (i : Nat) (s : Mem w V), i < bins → (s (.off i)).nat = f 0 i →
      (∀ j, j < T → (s (.bin j i)).nat + f j i = f (j + 1) i) → ∀ m, m ≤ T - 1 →
      let s1 := (List.range' 1 m).foldl (fun s j =>
        put (.bin j i) (fun s => .num ((s (.bin j i)).nat + (s (.bin (j - 1) i)).nat)) s)
        (put (.bin 0 i) (fun s => .num ((s (.bin 0 i)).nat + (s (.off i)).nat)) s)
      (∀ j, j ≤ m → (s1 (.bin j i)).nat = f (j + 1) i) ∧
      (∀ l, (∀ j, j ≤ m → l ≠ .bin j i) → s1 l = s l) := by
    intro i s hi ho hb m
    induction m with
    | zero =>
      intro _
      refine ⟨fun j hj => ?_, fun l hl => put_ne _ _ _ _ (hl 0 (Nat.le_refl _))⟩
      obtain rfl : j = 0 := by omega
      simp only [List.range'_zero, List.foldl_nil]
      rw [put_same]
      simp only [Cell.nat.eq_1]
      rw [ho, hb 0 hT]
    | succ m ih =>
      intro hm
      obtain ⟨i1, i2⟩ := ih (by omega)
      dsimp only at i1 i2 ⊢
      rw [List.range'_1_concat, List.foldl_append]
      generalize List.foldl _ _ (List.range' 1 m) = s1 at i1 i2 ⊢
      simp only [List.foldl_cons, List.foldl_nil, Nat.add_comm 1 m]
      refine ⟨fun j hj => ?_, fun l hl => ?_⟩
      · by_cases e : j = m + 1
        · subst e
          rw [put_same]
          simp only [Cell.nat.eq_1, Nat.add_sub_cancel]
          rw [i1 m (by omega), i2 _ (by simp; omega), hb (m + 1) (by omega)]
        · rw [put_ne _ _ _ _ (by simpa using e), i1 j (by omega)]
      · rw [put_ne _ _ _ _ (hl _ (Nat.le_refl _)), i2 l (fun j hj => hl j (by omega))]
  unfold localOffsets
  have key : ∀ m, m ≤ bins →
      let s1 := (List.range m).foldl (fun s i =>
        (List.range' 1 (T - 1)).foldl (fun s j =>
          put (.bin j i) (fun s => .num ((s (.bin j i)).nat + (s (.bin (j - 1) i)).nat)) s)
          (put (.bin 0 i) (fun s => .num ((s (.bin 0 i)).nat + (s (.off i)).nat)) s)) s
      (∀ j x, j < T → x < m → (s1 (.bin j x)).nat = f (j + 1) x) ∧
      (∀ l, (∀ j x, x < m → l ≠ .bin j x) → s1 l = s l) := by
    intro m
    induction m with
    | zero => intro _; exact ⟨fun j x _ hx => by omega, fun l _ => rfl⟩
    | succ m ih =>
      intro hm
      obtain ⟨i1, i2⟩ := ih (by omega)
      dsimp only at i1 i2 ⊢
      rw [List.range_succ, List.foldl_append]
      generalize List.foldl _ _ (List.range m) = s1 at i1 i2 ⊢
      simp only [List.foldl_cons, List.foldl_nil]
      obtain ⟨n1, n2⟩ := inner m s1 (by omega)
        (by rw [i2 _ (by simp), h0 m (by omega)])
        (by intro j hj; rw [i2 _ (by simp; omega), hb j m hj (by omega)]) (T - 1) (Nat.le_refl _)
      refine ⟨fun j x hj hx => ?_, fun l hl => ?_⟩
      · by_cases e : x = m
        · subst e; exact n1 j (by omega)
        · rw [n2 _ (by simp; omega), i1 j x hj (by omega)]
      · rw [n2 l (fun j _ => hl j m (by omega)), i2 l (fun j x hx => hl j x (by omega))]
  obtain ⟨k1, k2⟩ := key bins (Nat.le_refl _)
  exact ⟨k1, fun l hl => k2 l (fun j x _ => hl j x)⟩

/-! ### Distribution phase -/

theorem dist_loop (signed b : Bool) (n st mask t l : Nat) (d : Nat → Nat) (c : Nat → Cell w V)
    (R W : Loc → Prop) (hWbin : ∀ x, W (.bin t x)) (hRbin : ∀ x, R (.bin t x))
    (hRbuf : ∀ i, R (.buf b i)) :
    ∀ m, l + m ≤ n → (∀ i, l ≤ i → i < l + m → W (.buf (!b) (pos d n i))) →
    ∀ s : Mem w V, (∀ i, i < n → s (.buf b i) = c i) →
    (∀ i, i < n → digit signed st mask (c i) = d i) →
    (∀ i, l ≤ i → i < l + m → (s (.bin t (d i))).nat = offs d n (d i) + cnt d (d i) (l + m)) →
    let p := (List.range' l m).reverse.flatMap (distStep signed b st mask t)
    FootFrom R W p s ∧
    (∀ i, l ≤ i → i < l + m → exec p s (.buf (!b) (pos d n i)) = c i) ∧
    (∀ k, (∀ i, l ≤ i → i < l + m → pos d n i ≠ k) → exec p s (.buf (!b) k) = s (.buf (!b) k)) := by
  intro m
  induction m with
  | zero =>
    intro _ _ s _ _ _
    exact ⟨trivial, fun i _ _ => by omega, fun k _ => rfl⟩
  | succ m ih =>
    intro hlm hW s hs hd hb
    dsimp only
    rw [List.range'_1_concat, List.reverse_append, List.reverse_singleton, List.singleton_append,
      List.flatMap_cons]
    have hc : s (.buf b (l + m)) = c (l + m) := hs _ (by omega)
    have hdi : digit signed st mask (c (l + m)) = d (l + m) := hd _ (by omega)
    have hbi := hb (l + m) (by omega) (by omega)
    rw [show l + (m + 1) = (l + m) + 1 by omega, cnt, if_pos rfl] at hbi
    -- the two actions of this iteration
    generalize hs1 : put (.bin t (d (l + m)))
      (fun s : Mem w V => .num ((s (.bin t (d (l + m)))).nat - 1)) s = s1
    have h1bin : (s1 (.bin t (d (l + m)))).nat = pos d n (l + m) := by
      rw [← hs1, put_same]
      simp only [Cell.nat.eq_1]
      rw [hbi]; unfold pos; omega
    have h1buf : ∀ b' i, s1 (.buf b' i) = s (.buf b' i) := by
      intro b' i; rw [← hs1, put_ne _ _ _ _ (by simp)]
    generalize hs2 : put (.buf (!b) (pos d n (l + m))) (fun s : Mem w V => s (.buf b (l + m))) s1 = s2
    have hexec : exec (distStep signed b st mask t (l + m)) s = s2 := by
      simp only [distStep, exec_cons, exec_nil]
      have e1 : put (.bin t (digit signed st mask (s (.buf b (l + m)))))
          (fun s => .num ((s (.bin t (digit signed st mask (s (.buf b (l + m)))))).nat - 1)) s = s1 := by
        rw [← hs1]
        simp only [put]
        rw [hc, hdi]
      rw [e1, h1buf, hc, hdi, h1bin, hs2]
    have h2buf : ∀ i, s2 (.buf b i) = s (.buf b i) := by
      intro i
      rw [← hs2, put_ne _ _ _ _ (by simp), h1buf]
    have h2bin : ∀ x, x ≠ d (l + m) → s2 (.bin t x) = s (.bin t x) := by
      intro x hx
      rw [← hs2, put_ne _ _ _ _ (by simp), ← hs1, put_ne _ _ _ _ (by simpa using hx)]
    have h2bin' : (s2 (.bin t (d (l + m)))).nat = pos d n (l + m) := by
      rw [← hs2, put_ne _ _ _ _ (by simp), h1bin]
    have hcpos : s2 (.buf (!b) (pos d n (l + m))) = c (l + m) := by
      rw [← hs2, put_same, h1buf, hc]
    have hother : ∀ k, k ≠ pos d n (l + m) → s2 (.buf (!b) k) = s (.buf (!b) k) := by
      intro k hk
      rw [← hs2, put_ne _ _ _ _ (by simpa using hk), h1buf]
    obtain ⟨f1, f2, f3⟩ := ih (by omega) (fun i h1 h2 => hW i h1 (by omega)) s2
      (fun i hi => by rw [h2buf, hs i hi]) hd
      (by
        intro i h1 h2
        by_cases e : d i = d (l + m)
        · rw [e, h2bin']; rfl
        · rw [h2bin _ e, hb i h1 (by omega), show l + (m + 1) = (l + m) + 1 by omega, cnt,
            if_neg (fun h => e h.symm)]; rfl)
    rw [exec_append, hexec]
    refine ⟨footFrom_append _ _ _ ?_ (by rw [hexec]; exact f1), fun i h1 h2 => ?_, fun k hk => ?_⟩
    · refine ⟨fun s' h' => ?_, fun s' h' => ?_, trivial⟩
      · have e : s' (.buf b (l + m)) = s (.buf b (l + m)) := h' _ (hRbuf _)
        refine ⟨fun l' hl' => put_ne _ _ _ _ (fun e => hl' (e ▸ hWbin _)), fun l' hl' => ?_⟩
        dsimp only
        rw [e]
        by_cases e' : l' = .bin t (digit signed st mask (s (.buf b (l + m))))
        · subst e'; rw [put_same, put_same, e, h' _ (hRbin _)]
        · rw [put_ne _ _ _ _ e', put_ne _ _ _ _ e']; exact h' _ hl'
      · have e1 : put (.bin t (digit signed st mask (s (.buf b (l + m)))))
            (fun s => .num ((s (.bin t (digit signed st mask (s (.buf b (l + m)))))).nat - 1)) s = s1 := by
          rw [← hs1]
          simp only [put]
          rw [hc, hdi]
        have h' : ∀ l, R l → s' l = s1 l := by rw [← e1]; exact h'
        dsimp only
        rw [e1]
        have eb : s' (.buf b (l + m)) = c (l + m) := by rw [h' _ (hRbuf _), h1buf, hc]
        have ebin : (s' (.bin t (d (l + m)))).nat = pos d n (l + m) := by
          rw [h' _ (hRbin _), h1bin]
        have eb1 : s1 (.buf b (l + m)) = c (l + m) := by rw [h1buf, hc]
        rw [eb, hdi, ebin, eb1, hdi, h1bin]
        refine ⟨fun l' hl' => put_ne _ _ _ _ (fun e => hl' (e ▸ hW _ (by omega) (by omega))),
          fun l' hl' => ?_⟩
        by_cases e' : l' = .buf (!b) (pos d n (l + m))
        · subst e'; rw [put_same, put_same, eb, eb1]
        · rw [put_ne _ _ _ _ e', put_ne _ _ _ _ e']; exact h' _ hl'
    · by_cases e : i = l + m
      · subst e
        rw [f3 _ (fun i' h1' h2' he => ?_), hcpos]
        have := pos_inj d n i' (l + m) (by omega) (by omega) he
        omega
      · exact f2 i h1 (by omega)
    · rw [f3 k (fun i h1 h2 => hk i h1 (by omega)), hother k (hk _ (by omega) (by omega)).symm]

theorem distribute_run (signed b : Bool) (n T st mask : Nat) (hT : 0 < T) (d : Nat → Nat)
    (s : Mem w V) (hd : ∀ i, i < n → dg signed b st mask s i = d i)
    (hb : ∀ t i, t < T → i < n → (s (.bin t (d i))).nat = offs d n (d i) + cnt d (d i) (cut n T (t + 1)))
    (sched : List (Mem w V → Mem w V)) (h : Interleave T (distribute signed b n T st mask) sched) :
    (∀ i, i < n → exec sched s (.buf (!b) (pos d n i)) = s (.buf b i)) ∧
    (∀ l, (∀ t x, l ≠ .bin t x) → (∀ i, l ≠ .buf (!b) i) → exec sched s l = s l) := by
  let W : Nat → Loc → Prop := fun t l => (∃ x, l = .bin t x) ∨
    ∃ i, cut n T t ≤ i ∧ i < cut n T (t + 1) ∧ l = .buf (!b) (pos d n i)
  let R : Nat → Loc → Prop := fun t l => W t l ∨ ∃ i, l = .buf b i
  have body : ∀ t, t < T → FootFrom (R t) (W t) (distribute signed b n T st mask t) s ∧
      ∀ i, cut n T t ≤ i → i < cut n T (t + 1) →
        exec (distribute signed b n T st mask t) s (.buf (!b) (pos d n i)) = s (.buf b i) := by
    intro t ht
    unfold distribute
    by_cases hlt : lo n T t < n
    · rw [if_pos hlt]
      have c1 := cut_lo n T t hlt
      have c2 := cut_hi n T t hlt
      have c3 := cut_mono n T (show t ≤ t + 1 by omega)
      have c4 := cut_le n T (t + 1)
      rw [c1, c2] at c3
      rw [c2] at c4
      rw [c1, c2]
      have e : lo n T t + (hi n T t - lo n T t) = hi n T t := by omega
      have := dist_loop signed b n st mask t (lo n T t) d (fun i => s (.buf b i)) (R t) (W t)
        (fun x => Or.inl ⟨x, rfl⟩) (fun x => Or.inl (Or.inl ⟨x, rfl⟩)) (fun i => Or.inr ⟨i, rfl⟩)
        (hi n T t - lo n T t) (by omega)
        (fun i h1 h2 => Or.inr ⟨i, by omega, by omega, rfl⟩) s (fun i _ => rfl) hd
        (fun i h1 h2 => by rw [e, ← c2]; exact hb t i ht (by omega))
      rw [e] at this
      exact ⟨this.1, this.2.1⟩
    · rw [if_neg hlt]
      refine ⟨trivial, fun i h1 h2 => ?_⟩
      have := cut_idle n T t hlt
      omega
  obtain ⟨h1, h2⟩ := exec_thread_from T R W
    (by
      rintro t u l ht hu hne (⟨x, rfl⟩ | ⟨i, hi1, hi2, rfl⟩) ((⟨y, hy⟩ | ⟨j, hj1, hj2, hj⟩) | ⟨j, hj⟩)
      · simp at hy; omega
      · simp at hj
      · simp at hj
      · simp at hy
      · simp only [Loc.buf.injEq, true_and] at hj
        have l1 := cut_le n T (t + 1)
        have l2 := cut_le n T (u + 1)
        have := pos_inj d n i j (by omega) (by omega) hj
        subst this
        rcases Nat.lt_or_gt_of_ne hne with h | h
        · have := cut_mono n T (show t + 1 ≤ u from h); omega
        · have := cut_mono n T (show u + 1 ≤ t from h); omega
      · simp at hj)
    _ s (fun t ht => (body t ht).1) sched h
  refine ⟨fun i hi => ?_, fun l hl1 hl2 => h2 l ?_⟩
  · obtain ⟨t, ht, c1, c2⟩ := cut_exists n T i hT hi
    rw [h1 t ht _ (Or.inl (Or.inr ⟨i, c1, c2, rfl⟩))]
    exact (body t ht).2 i c1 c2
  · rintro t _ (⟨x, e⟩ | ⟨i, _, _, e⟩)
    · exact hl1 t x e
    · exact hl2 _ e

/-! ### One pass -/

theorem pass_stable (signed : Bool) (n st mask bins : Nat) (b b' : Bool) (s s' : Mem w V)
    (hd : ∀ i, i < n → dg signed b st mask s i < bins)
    (h : Pass signed n st mask bins b s b' s') :
    StableSort n (fun a c => digit signed st mask a < digit signed st mask c)
      (fun i => s (.buf b i)) (fun i => s' (.buf b' i)) ∧
    (∀ i, s' (.inp i) = s (.inp i)) ∧ (∀ i, s' (.out i) = s (.out i)) := by
  cases h with
  | skip T b s s1 s2 hT hr hred =>
    cases hr with
    | cons hi hr =>
    cases hr
    rename_i sc
    obtain ⟨c1, c2⟩ := count_run signed b n T st mask bins s sc hi
    obtain ⟨r1, _, r3, _⟩ := reduceBins_spec n T hT (dg signed b st mask s) _ _ _ _ List.nodup_range
      (fun j x hj hx => c1 j x hj (List.mem_range.mp hx)) hred
    obtain ⟨x, hx⟩ := r3 rfl
    have hall := cnt_full _ _ _ hx
    refine ⟨⟨fun i => i, fun i hi => hi, fun k hk => ⟨k, hk, rfl⟩, fun i _ => ?_, fun i j hi hj => ?_⟩,
      fun i => ?_, fun i => ?_⟩
    · change s' (.buf b i) = _
      rw [r1 _ (by simp), c2 _ (by simp)]
    · have e1 := hall i hi
      have e2 := hall j hj
      simp only [dg] at e1 e2
      dsimp only
      rw [e1, e2]; omega
    · rw [r1 _ (by simp), c2 _ (by simp)]
    · rw [r1 _ (by simp), c2 _ (by simp)]
  | move T b s s1 s2 s3 hT hr hred hr2 =>
    cases hr with
    | cons hi hr =>
    cases hr
    rename_i sc
    cases hr2 with
    | cons hi2 hr2 =>
    cases hr2
    rename_i sd
    obtain ⟨c1, c2⟩ := count_run signed b n T st mask bins s sc hi
    obtain ⟨r1, _, _, r4⟩ := reduceBins_spec n T hT (dg signed b st mask s) _ _ _ _ List.nodup_range
      (fun j x hj hx => c1 j x hj (List.mem_range.mp hx)) hred
    have hg := r4 rfl
    obtain ⟨o1, o2⟩ := offsets_spec n bins (dg signed b st mask s) s2
      (fun x hx => hg x (List.mem_range.mpr hx))
    obtain ⟨l1, l2⟩ := localOffsets_spec T bins hT
      (fun j x => offs (dg signed b st mask s) n x + cnt (dg signed b st mask s) x (cut n T j))
      (offsets bins s2)
      (fun x hx => by rw [o1 x hx, cut_zero]; rfl)
      (fun j x hj hx => by
        rw [o2 _ (by simp), r1 _ (by simp), c1 j x hj hx]
        have := cnt_mono (dg signed b st mask s) x (cut_mono n T (show j ≤ j + 1 by omega))
        omega)
    have hbuf : ∀ l, (∀ t x, l ≠ .bin t x) → (∀ x, l ≠ .off x) → (∀ x, l ≠ .glob x) →
        localOffsets T bins (offsets bins s2) l = s l := by
      intro l h1 h2 h3
      rw [l2 l h1, o2 l h2, r1 l h3, c2 l h1]
    obtain ⟨d1, d2⟩ := distribute_run signed b n T st mask hT (dg signed b st mask s)
      (localOffsets T bins (offsets bins s2))
      (fun i _ => by simp only [dg]; rw [hbuf _ (by simp) (by simp) (by simp)])
      (fun t i ht hi => l1 t _ ht (hd i hi)) sd hi2
    have hinj := pos_inj (dg signed b st mask s) n
    have hlt := fun i hi => pos_lt (dg signed b st mask s) n bins i hd hi
    refine ⟨⟨pos (dg signed b st mask s) n, hlt, surj_of_inj n _ hlt hinj, fun i hi => ?_,
      fun i j hi hj => pos_lt_iff _ n i j hi hj⟩, fun i => ?_, fun i => ?_⟩
    · dsimp only
      rw [d1 i hi, hbuf _ (by simp) (by simp) (by simp)]
    · rw [d2 _ (by simp) (by simp), hbuf _ (by simp) (by simp) (by simp)]
    · rw [d2 _ (by simp) (by simp), hbuf _ (by simp) (by simp) (by simp)]

/-! ### Composition of stable sorts -/

theorem StableSort.comp {α : Type} {n : Nat} {f g h : α → Nat} {a b c : Nat → α}
    (h1 : StableSort n (fun x y => f x < f y) a b) (h2 : StableSort n (fun x y => g x < g y) b c)
    (hh : ∀ x y, h x < h y ↔ g x < g y ∨ (¬ g y < g x ∧ f x < f y)) :
    StableSort n (fun x y => h x < h y) a c := by
  obtain ⟨p, p1, p2, p3, p4⟩ := h1
  obtain ⟨q, q1, q2, q3, q4⟩ := h2
  refine ⟨fun i => q (p i), fun i hi => q1 _ (p1 i hi), fun k hk => ?_, fun i hi => ?_,
    fun i j hi hj => ?_⟩
  · obtain ⟨j, hj, rfl⟩ := q2 k hk
    obtain ⟨i, hi, rfl⟩ := p2 j hj
    exact ⟨i, hi, rfl⟩
  · rw [q3 _ (p1 i hi), p3 i hi]
  · rw [q4 _ _ (p1 i hi) (p1 j hj), p3 i hi, p3 j hj, p4 i j hi hj]
    dsimp only
    have e1 := hh (a i) (a j)
    have e2 := hh (a j) (a i)
    omega

theorem StableSort.refl {α : Type} (n : Nat) (f : α → Nat) (a : Nat → α) (h : ∀ x, f x = 0) :
    StableSort n (fun x y => f x < f y) a a :=
  ⟨fun i => i, fun _ h => h, fun k hk => ⟨k, hk, rfl⟩, fun _ _ => rfl, fun i j _ _ => by
    simp only [h]; omega⟩

theorem StableSort.mono {α : Type} {n : Nat} {f g : α → α → Prop} {a b : Nat → α}
    (h : StableSort n f a b) (hfg : ∀ i j, i < n → j < n → (f (a i) (a j) ↔ g (a i) (a j))) :
    StableSort n g a b := by
  obtain ⟨p, p1, p2, p3, p4⟩ := h
  exact ⟨p, p1, p2, p3, fun i j hi hj => by
    rw [p4 i j hi hj, hfg i j hi hj, hfg j i hj hi]⟩

/-! ### Bit fields -/

/-- Bits `a .. a+m-1` of `k`. -/
def field (a m k : Nat) : Nat := k / 2 ^ a % 2 ^ m

theorem field_split (a m c k : Nat) :
    field a (m + c) k = field (a + m) c k * 2 ^ m + field a m k := by
  unfold field
  rw [Nat.pow_add, Nat.mod_mul, Nat.div_div_eq_div_mul, ← Nat.pow_add]
  rw [Nat.mul_comm, Nat.add_comm]

theorem field_lex (a m c x y : Nat) : field a (m + c) x < field a (m + c) y ↔
    field (a + m) c x < field (a + m) c y ∨
      (¬ field (a + m) c y < field (a + m) c x ∧ field a m x < field a m y) := by
  rw [field_split, field_split]
  have hx : field a m x < 2 ^ m := Nat.mod_lt _ (Nat.two_pow_pos _)
  have hy : field a m y < 2 ^ m := Nat.mod_lt _ (Nat.two_pow_pos _)
  generalize field a m x = p at *
  generalize field a m y = q at *
  generalize field (a + m) c x = u at *
  generalize field (a + m) c y = v at *
  generalize 2 ^ m = N at *
  have key : ∀ u v p q : Nat, p < N → q < N → u < v → u * N + p < v * N + q := by
    intro u v p q hp hq huv
    have := Nat.mul_le_mul_right N (show u + 1 ≤ v from huv)
    rw [Nat.add_mul] at this
    omega
  rcases Nat.lt_trichotomy u v with h | h | h
  · have := key u v p q hx hy h; omega
  · subst h; omega
  · have := key v u q p hy hx h; omega

theorem digit_field (signed : Bool) (st c : Nat) (x : Cell w V) (h : st + c ≤ w) :
    digit signed st (2 ^ c - 1) x = field st c x.key.toNat := by
  unfold digit field
  rw [Nat.and_two_pow_sub_one_eq_mod]
  apply Nat.eq_of_testBit_eq
  intro i
  rw [Nat.testBit_mod_two_pow, Nat.testBit_mod_two_pow, ← Nat.shiftRight_eq_div_pow,
    Nat.testBit_shiftRight]
  by_cases hi : i < c
  · simp only [hi, decide_true, Bool.true_and]
    cases signed with
    | false => simp [BitVec.toNat_ushiftRight, Nat.testBit_shiftRight]
    | true =>
      simp only [if_true, BitVec.testBit_toNat, BitVec.getLsbD_sshiftRight]
      rw [if_pos (by omega)]
      simp; omega
  · simp [hi]

/-! ### The loop over the passes -/

theorem mask_shift (k : Nat) (hk : k ≤ 8) :
    ((1 <<< 8) - 1) >>> k = 2 ^ (8 - k) - 1 ∧ (1 <<< 8) >>> k = 2 ^ (8 - k) := by
  rcases k with _|_|_|_|_|_|_|_|_|k <;> first | decide | omega

theorem passes_stable (signed : Bool) (n ebit sbit : Nat) (he : ebit ≤ w) :
    ∀ (st mask bins : Nat) (b b' : Bool) (s s' : Mem w V),
    sbit ≤ st → (st < ebit → mask = (1 <<< 8) - 1 ∧ bins = 1 <<< 8) →
    Passes signed n ebit st mask bins b s b' s' → ∀ inp : Nat → Cell w V,
    StableSort n (fun x y => field sbit (min st ebit - sbit) x.key.toNat <
      field sbit (min st ebit - sbit) y.key.toNat) inp (fun i => s (.buf b i)) →
    StableSort n (fun x y => field sbit (ebit - sbit) x.key.toNat <
      field sbit (ebit - sbit) y.key.toNat) inp (fun i => s' (.buf b' i)) ∧
    (∀ i, s' (.inp i) = s (.inp i)) ∧ (∀ i, s' (.out i) = s (.out i)) := by
  intro st mask bins b b' s s' hst hm hp
  induction hp with
  | done st mask bins b s hlt =>
    intro inp h
    rw [show min st ebit = ebit by omega] at h
    exact ⟨h, fun _ => rfl, fun _ => rfl⟩
  | full st mask bins b b1 b2 s s1 s2 hlt h8 hpass _ ih =>
    intro inp h
    obtain ⟨rfl, rfl⟩ := hm hlt
    have hdf : ∀ x : Cell w V, digit signed st ((1 <<< 8) - 1) x = field st 8 x.key.toNat :=
      fun x => digit_field signed st 8 x (by omega)
    obtain ⟨p1, p2, p3⟩ := pass_stable signed n st _ _ b b1 s s1
      (fun i _ => by rw [dg, hdf]; exact Nat.mod_lt _ (by decide)) hpass
    have := StableSort.comp h p1 (h := fun x => field sbit (min (st + 8) ebit - sbit) x.key.toNat)
      (by
        intro x y
        rw [hdf, hdf, show min (st + 8) ebit - sbit = (min st ebit - sbit) + 8 by omega, field_lex,
          show sbit + (min st ebit - sbit) = st by omega])
    obtain ⟨i1, i2, i3⟩ := ih (by omega) (fun _ => ⟨rfl, rfl⟩) inp this
    exact ⟨i1, fun i => by rw [i2, p2], fun i => by rw [i3, p3]⟩
  | last st mask bins b b1 b2 s s1 s2 hlt h8 hpass _ ih =>
    intro inp h
    obtain ⟨rfl, rfl⟩ := hm hlt
    obtain ⟨e1, e2⟩ := mask_shift (st + 8 - ebit) (by omega)
    rw [e1, e2] at hpass
    rw [show 8 - (st + 8 - ebit) = ebit - st by omega] at hpass
    have hdf : ∀ x : Cell w V, digit signed st (2 ^ (ebit - st) - 1) x =
        field st (ebit - st) x.key.toNat :=
      fun x => digit_field signed st (ebit - st) x (by omega)
    obtain ⟨p1, p2, p3⟩ := pass_stable signed n st _ _ b b1 s s1
      (fun i _ => by rw [dg, hdf]; exact Nat.mod_lt _ (Nat.two_pow_pos _)) hpass
    have := StableSort.comp h p1 (h := fun x => field sbit (min (st + 8) ebit - sbit) x.key.toNat)
      (by
        intro x y
        rw [hdf, hdf, show min (st + 8) ebit - sbit = (min st ebit - sbit) + (ebit - st) by omega,
          field_lex, show sbit + (min st ebit - sbit) = st by omega])
    obtain ⟨i1, i2, i3⟩ := ih (by omega) (by omega) inp this
    exact ⟨i1, fun i => by rw [i2, p2], fun i => by rw [i3, p3]⟩

/-! ### Copies and the bias of signed keys -/

theorem copyIn_run (signed inPlace : Bool) (n : Nat) (s s' : Mem w V)
    (h : Runs n [copyIn signed inPlace] s s') :
    (∀ i, i < n → s' (.buf false i) = (s (rd inPlace i)).bias signed) ∧
    (∀ i, s' (.inp i) = s (.inp i)) ∧ (∀ i, s' (.out i) = s (.out i)) := by
  cases h with
  | cons hi hr =>
  cases hr
  rename_i sc
  obtain ⟨h1, h2⟩ := exec_thread n (fun t l => l = .buf false t ∨ l = rd inPlace t)
    (fun t l => l = .buf false t)
    (by
      rintro t u l _ _ hne rfl (e | e)
      · simp at e; omega
      · cases inPlace <;> simp [rd] at e)
    (copyIn signed inPlace)
    (by
      intro t _ a ha
      simp only [copyIn, List.mem_cons, List.not_mem_nil, or_false] at ha
      subst ha
      constructor
      · intro s l hl; exact put_ne _ _ _ _ hl
      · intro s s' hs l hl
        by_cases e : l = .buf false t
        · subst e; rw [put_same, put_same, hs _ (Or.inr rfl)]
        · rw [put_ne _ _ _ _ e, put_ne _ _ _ _ e]; exact hs l hl) sc hi s
  refine ⟨fun i hi => ?_, fun i => h2 _ (by simp), fun i => h2 _ (by simp)⟩
  rw [h1 i hi _ (Or.inl rfl), copyIn, exec_cons, exec_nil, put_same]

theorem copyOut_run (signed b : Bool) (n : Nat) (s s' : Mem w V)
    (h : Runs n [copyOut signed b] s s') :
    (∀ i, i < n → s' (.out i) = (s (.buf b i)).bias signed) ∧
    (∀ i, s' (.inp i) = s (.inp i)) ∧ (∀ i, n ≤ i → s' (.out i) = s (.out i)) := by
  cases h with
  | cons hi hr =>
  cases hr
  rename_i sc
  obtain ⟨h1, h2⟩ := exec_thread n (fun t l => l = .out t ∨ l = .buf b t)
    (fun t l => l = .out t)
    (by
      rintro t u l _ _ hne rfl (e | e)
      · simp at e; omega
      · simp at e)
    (copyOut signed b)
    (by
      intro t _ a ha
      simp only [copyOut, List.mem_cons, List.not_mem_nil, or_false] at ha
      subst ha
      constructor
      · intro s l hl; exact put_ne _ _ _ _ hl
      · intro s s' hs l hl
        by_cases e : l = .out t
        · subst e; rw [put_same, put_same, hs _ (Or.inr rfl)]
        · rw [put_ne _ _ _ _ e, put_ne _ _ _ _ e]; exact hs l hl) sc hi s
  refine ⟨fun i hi => ?_, fun i => h2 _ (by simp), fun i hi => h2 _ (by simp; omega)⟩
  rw [h1 i hi _ (Or.inl rfl), copyOut, exec_cons, exec_nil, put_same]

theorem bias_bias (signed : Bool) (c : Cell w V) : (c.bias signed).bias signed = c := by
  cases c with
  | num n => rfl
  | elt k v =>
    cases signed with
    | false => rfl
    | true => simp [Cell.bias, BitVec.xor_assoc]

theorem xor_sign (m x : Nat) (hx : x < 2 ^ (m + 1)) :
    x ^^^ 2 ^ m = if x < 2 ^ m then x + 2 ^ m else x - 2 ^ m := by
  have key : ∀ y, y < 2 ^ m → y ^^^ 2 ^ m = y + 2 ^ m := by
    intro y hy
    have h2 := Nat.two_pow_add_eq_or_of_lt hy 1
    rw [Nat.mul_one] at h2
    rw [Nat.add_comm, h2]
    apply Nat.eq_of_testBit_eq
    intro i
    rw [Nat.testBit_xor, Nat.testBit_or, Nat.testBit_two_pow]
    by_cases e : m = i
    · subst e
      rw [Nat.testBit_lt_two_pow hy]; simp
    · simp [e]
  split
  case isTrue h => exact key x h
  case isFalse h =>
    rw [Nat.pow_succ] at hx
    have := key (x - 2 ^ m) (by omega)
    rw [show x - 2 ^ m + 2 ^ m = x by omega] at this
    conv_lhs => rw [← this]
    rw [Nat.xor_assoc, Nat.xor_self, Nat.xor_zero]

theorem bias_toNat (k : BitVec w) (hw : 0 < w) :
    ((k ^^^ (1#w <<< (w - 1))).toNat : Int) = k.toInt + 2 ^ (w - 1) := by
  obtain ⟨m, rfl⟩ : ∃ m, w = m + 1 := ⟨w - 1, by omega⟩
  rw [BitVec.toNat_xor, BitVec.toNat_shiftLeft]
  have h1 : (1#(m + 1)).toNat <<< (m + 1 - 1) % 2 ^ (m + 1) = 2 ^ m := by
    rw [Nat.add_sub_cancel, Nat.shiftLeft_eq]
    have : (1#(m + 1)).toNat = 1 := by simp
    rw [this, Nat.one_mul, Nat.mod_eq_of_lt (Nat.pow_lt_pow_right (by omega) (by omega))]
  rw [h1, xor_sign m _ k.isLt, BitVec.toInt_eq_toNat_cond]
  have h2 : (2 : Nat) ^ (m + 1) = 2 * 2 ^ m := by rw [Nat.pow_succ, Nat.mul_comm]
  have hk := k.isLt
  rw [Nat.add_sub_cancel]
  have h3 : ((2 : Int) ^ m) = ((2 ^ m : Nat) : Int) := by simp
  rw [h3]
  rw [h2] at hk ⊢
  generalize 2 ^ m = N at *
  split <;> split <;> omega

/-! ### The whole sort -/

theorem radix_stable (signed inPlace : Bool) (n sbit ebit : Nat) (he : ebit ≤ w) (s s' : Mem w V)
    (h : RadixSort signed inPlace n sbit ebit s s') :
    StableSort n (fun x y => field sbit (ebit - sbit) (x.bias signed).key.toNat <
        field sbit (ebit - sbit) (y.bias signed).key.toNat)
      (fun i => s (rd inPlace i)) (fun i => s' (.out i)) ∧
    (∀ i, s' (.inp i) = s (.inp i)) ∧ (∀ i, n ≤ i → s' (.out i) = s (.out i)) := by
  obtain ⟨s1, s2, b, h1, h2, h3⟩ := h
  obtain ⟨a1, a2, a3⟩ := copyIn_run signed inPlace n s s1 h1
  obtain ⟨c1, c2, c3⟩ := copyOut_run signed b n s2 s' h3
  obtain ⟨p1, p2, p3⟩ := passes_stable signed n ebit sbit he sbit _ _ false b s1 s2 (Nat.le_refl _)
    (fun _ => ⟨rfl, rfl⟩) h2 (fun i => s1 (.buf false i))
    (StableSort.refl n (fun x : Cell w V => field sbit (min sbit ebit - sbit) x.key.toNat) _
      (fun x => by rw [show min sbit ebit - sbit = 0 by omega]; simp [field, Nat.mod_one]))
  refine ⟨?_, fun i => by rw [c2, p2, a2], fun i hi => by rw [c3 i hi, p3, a3]⟩
  obtain ⟨q, q1, q2, q3, q4⟩ := p1
  refine ⟨q, q1, q2, fun i hi => ?_, fun i j hi hj => ?_⟩
  · dsimp only
    rw [c1 _ (q1 i hi)]
    have := q3 i hi
    dsimp only at this
    rw [this, a1 i hi, bias_bias]
  · rw [q4 i j hi hj]
    dsimp only
    rw [a1 i hi, a1 j hj]

/-! ### Existence of runs -/

theorem pass_exists (signed : Bool) (n st mask bins : Nat) (b : Bool) (s : Mem w V) :
    ∃ b' s', Pass signed n st mask bins b s b' s' := by
  obtain ⟨s1, h1⟩ := runs_exists 1 [count signed b n 1 st mask bins] s
  cases hr : reduceBins n 1 (List.range bins) s1 with
  | mk r s2 =>
    cases r with
    | true => exact ⟨b, s2, .skip 1 b s s1 s2 (by omega) h1 hr⟩
    | false =>
      obtain ⟨s3, h3⟩ := runs_exists 1 [distribute signed b n 1 st mask]
        (localOffsets 1 bins (offsets bins s2))
      exact ⟨!b, s3, .move 1 b s s1 s2 s3 (by omega) h1 hr h3⟩

theorem passes_exists (signed : Bool) (n ebit : Nat) : ∀ k st mask bins, ebit - st ≤ k →
    ∀ (b : Bool) (s : Mem w V), ∃ b' s', Passes signed n ebit st mask bins b s b' s' := by
  intro k
  induction k with
  | zero => intro st mask bins hk b s; exact ⟨b, s, .done _ _ _ _ _ (by omega)⟩
  | succ k ih =>
    intro st mask bins hk b s
    by_cases h : st < ebit
    · by_cases h8 : st + 8 > ebit
      · obtain ⟨b1, s1, h1⟩ := pass_exists signed n st (mask >>> (st + 8 - ebit))
          (bins >>> (st + 8 - ebit)) b s
        obtain ⟨b2, s2, h2⟩ := ih (st + 8) (mask >>> (st + 8 - ebit)) (bins >>> (st + 8 - ebit))
          (by omega) b1 s1
        exact ⟨b2, s2, .last _ _ _ _ _ _ _ _ _ h h8 h1 h2⟩
      · obtain ⟨b1, s1, h1⟩ := pass_exists signed n st mask bins b s
        obtain ⟨b2, s2, h2⟩ := ih (st + 8) mask bins (by omega) b1 s1
        exact ⟨b2, s2, .full _ _ _ _ _ _ _ _ _ h h8 h1 h2⟩
    · exact ⟨b, s, .done _ _ _ _ _ h⟩

theorem radix_exists (signed inPlace : Bool) (n sbit ebit : Nat) (s : Mem w V) :
    ∃ s', RadixSort signed inPlace n sbit ebit s s' := by
  obtain ⟨s1, h1⟩ := runs_exists n [copyIn signed inPlace] s
  obtain ⟨b, s2, h2⟩ := passes_exists signed n ebit (ebit - sbit) sbit ((1 <<< 8) - 1) (1 <<< 8)
    (Nat.le_refl _) false s1
  obtain ⟨s3, h3⟩ := runs_exists n [copyOut signed b] s2
  exact ⟨s3, s1, s2, b, h1, h2, h3⟩

/-! ### Sequential policy -/

theorem seqZero_loop (m : Nat) (s : Mem w V) :
    let s1 := (List.range m).foldl (fun s d => put (.glob d) (fun _ => .num 0) s) s
    (∀ x, x < m → (s1 (.glob x)).nat = 0) ∧ (∀ l, (∀ x, l ≠ .glob x) → s1 l = s l) := by
  induction m with
  | zero => exact ⟨fun x hx => by omega, fun l _ => rfl⟩
  | succ m ih =>
    obtain ⟨i1, i2⟩ := ih
    dsimp only at i1 i2 ⊢
    rw [List.range_succ, List.foldl_append]
    generalize List.foldl _ _ (List.range m) = s1 at i1 i2 ⊢
    simp only [List.foldl_cons, List.foldl_nil]
    refine ⟨fun x hx => ?_, fun l hl => ?_⟩
    · by_cases e : x = m
      · subst e; rw [put_same]; rfl
      · rw [put_ne _ _ _ _ (by simpa using e), i1 x (by omega)]
    · rw [put_ne _ _ _ _ (hl m), i2 l hl]

theorem seqCount_spec (signed b : Bool) (n st mask bins : Nat) (s : Mem w V) :
    (∀ x, x < bins → ((seqCount signed b n st mask bins s) (.glob x)).nat =
      cnt (dg signed b st mask s) x n) ∧
    (∀ l, (∀ x, l ≠ .glob x) → seqCount signed b n st mask bins s l = s l) := by
  unfold seqCount
  obtain ⟨z1, z2⟩ := seqZero_loop bins s
  generalize List.foldl _ s (List.range bins) = s0 at z1 z2 ⊢
  have hdg : dg signed b st mask s0 = dg signed b st mask s := by
    funext i; simp only [dg]; rw [z2 _ (by simp)]
  induction n with
  | zero => exact ⟨fun x hx => by simpa [cnt] using z1 x hx, z2⟩
  | succ n ih =>
    obtain ⟨i1, i2⟩ := ih
    rw [List.range_succ, List.foldl_append]
    generalize List.foldl _ s0 (List.range n) = s1 at i1 i2 ⊢
    simp only [List.foldl_cons, List.foldl_nil]
    have hb : s1 (.buf b n) = s (.buf b n) := i2 _ (by simp)
    rw [hb]
    have hd : digit signed st mask (s (.buf b n)) = dg signed b st mask s n := rfl
    rw [hd]
    refine ⟨fun x hx => ?_, fun l hl => by rw [put_ne _ _ _ _ (hl _), i2 l hl]⟩
    rw [cnt]
    by_cases e : dg signed b st mask s n = x
    · rw [if_pos e, ← e, put_same]
      simp only [Cell.nat.eq_1, hb]
      rw [hd, e, i1 x hx]
    · rw [if_neg e, put_ne _ _ _ _ (by simpa using fun h => e h.symm), i1 x hx]; rfl

theorem seqOffsets_spec (n bins : Nat) (d : Nat → Nat) (skip : Bool) :
    ∀ (m a : Nat) (s : Mem w V), 1 ≤ a → a + m = bins →
    (∀ x, x < bins → (s (.glob x)).nat = cnt d x n) → (∀ x, x < a → (s (.off x)).nat = offs d n x) →
    (skip = true → ∃ x, cnt d x n = n) →
    let r := seqOffsets n (List.range' a m) skip s
    (∀ l, (∀ x, l ≠ .off x) → r.2 l = s l) ∧ (r.1 = true → ∃ x, cnt d x n = n) ∧
    (r.1 = false → ∀ x, x < bins → (r.2 (.off x)).nat = offs d n x) := by
  intro m
  induction m with
  | zero =>
    intro a s ha hab hg ho hs
    exact ⟨fun l _ => rfl, hs, fun _ x hx => ho x (by omega)⟩
  | succ m ih =>
    intro a s ha hab hg ho hs
    dsimp only
    rw [List.range'_succ, seqOffsets]
    split
    case isTrue h =>
      rw [hg a (by omega)] at h
      exact ⟨fun l _ => rfl, fun _ => ⟨a, h⟩, fun hh => by simp at hh⟩
    case isFalse h =>
      obtain ⟨i1, i2, i3⟩ := ih (a + 1)
        (put (.off a) (fun s => .num ((s (.off (a - 1))).nat + (s (.glob (a - 1))).nat)) s)
        (by omega) (by omega) (fun x hx => by rw [put_ne _ _ _ _ (by simp), hg x hx])
        (by
          intro x hx
          by_cases e : x = a
          · subst e
            rw [put_same]
            simp only [Cell.nat.eq_1]
            obtain ⟨y, rfl⟩ : ∃ y, x = y + 1 := ⟨x - 1, by omega⟩
            rw [Nat.add_sub_cancel, ho y (by omega), hg y (by omega), offs]
          · rw [put_ne _ _ _ _ (by simpa using e), ho x (by omega)]) hs
      exact ⟨fun l hl => by rw [i1 l hl, put_ne _ _ _ _ (hl a)], i2, i3⟩

theorem seqAdd_spec (bins : Nat) (s : Mem w V) :
    let s1 := (List.range bins).foldl (fun s i =>
      put (.glob i) (fun s => .num ((s (.glob i)).nat + (s (.off i)).nat)) s) s
    (∀ x, x < bins → (s1 (.glob x)).nat = (s (.glob x)).nat + (s (.off x)).nat) ∧
    (∀ l, (∀ x, x < bins → l ≠ .glob x) → s1 l = s l) := by
  induction bins with
  | zero => exact ⟨fun x hx => by omega, fun l _ => rfl⟩
  | succ m ih =>
    obtain ⟨i1, i2⟩ := ih
    dsimp only at i1 i2 ⊢
    rw [List.range_succ, List.foldl_append]
    generalize List.foldl _ _ (List.range m) = s1 at i1 i2 ⊢
    simp only [List.foldl_cons, List.foldl_nil]
    refine ⟨fun x hx => ?_, fun l hl => ?_⟩
    · by_cases e : x = m
      · subst e; rw [put_same]
        simp only [Cell.nat.eq_1]
        rw [i2 _ (by simp; omega), i2 _ (by simp)]
      · rw [put_ne _ _ _ _ (by simpa using e), i1 x (by omega)]
    · rw [put_ne _ _ _ _ (hl m (by omega)), i2 l (fun x hx => hl x (by omega))]

theorem seqDist_loop (signed b : Bool) (n st mask : Nat) (d : Nat → Nat) (c : Nat → Cell w V) :
    ∀ m, m ≤ n → ∀ s : Mem w V, (∀ i, i < n → s (.buf b i) = c i) →
    (∀ i, i < n → digit signed st mask (c i) = d i) →
    (∀ i, i < m → (s (.glob (d i))).nat = offs d n (d i) + cnt d (d i) m) →
    let s1 := (List.range m).reverse.foldl (fun s i =>
      let d := digit signed st mask (s (.buf b i))
      let s := put (.glob d) (fun s => .num ((s (.glob d)).nat - 1)) s
      put (.buf (!b) (s (.glob d)).nat) (fun s => s (.buf b i)) s) s
    (∀ i, i < m → s1 (.buf (!b) (pos d n i)) = c i) ∧
    (∀ l, (∀ x, l ≠ .glob x) → (∀ i, i < m → l ≠ .buf (!b) (pos d n i)) → s1 l = s l) := by
  intro m
  induction m with
  | zero => intro _ s _ _ _; exact ⟨fun i hi => by omega, fun l _ _ => rfl⟩
  | succ m ih =>
    intro hm s hs hd hb
    dsimp only
    rw [List.range_succ, List.reverse_append, List.reverse_singleton, List.singleton_append,
      List.foldl_cons]
    have hc : s (.buf b m) = c m := hs _ (by omega)
    have hdi : digit signed st mask (c m) = d m := hd _ (by omega)
    have hbi := hb m (by omega)
    rw [cnt, if_pos rfl] at hbi
    rw [hc, hdi]
    generalize hs1 : put (.glob (d m)) (fun s : Mem w V => .num ((s (.glob (d m))).nat - 1)) s = s1
    have h1bin : (s1 (.glob (d m))).nat = pos d n m := by
      rw [← hs1, put_same]
      simp only [Cell.nat.eq_1]
      rw [hbi]; unfold pos; omega
    have h1buf : ∀ l, (∀ x, l ≠ .glob x) → s1 l = s l := by
      intro l hl; rw [← hs1, put_ne _ _ _ _ (hl _)]
    rw [h1bin]
    generalize hs2 : put (.buf (!b) (pos d n m)) (fun s : Mem w V => s (.buf b m)) s1 = s2
    have h2buf : ∀ i, s2 (.buf b i) = s (.buf b i) := by
      intro i
      rw [← hs2, put_ne _ _ _ _ (by simp), h1buf _ (by simp)]
    obtain ⟨f2, f3⟩ := ih (by omega) s2 (fun i hi => by rw [h2buf, hs i hi]) hd
      (by
        intro i h1
        rw [← hs2, put_ne _ _ _ _ (by simp)]
        by_cases e : d i = d m
        · rw [e, h1bin]; rfl
        · rw [← hs1, put_ne _ _ _ _ (by simpa using e), hb i (by omega), cnt,
            if_neg (fun h => e h.symm)]; rfl)
    refine ⟨fun i hi => ?_, fun l hl1 hl2 => ?_⟩
    · by_cases e : i = m
      · subst e
        rw [f3 _ (by simp) (fun i' hi' he => ?_), ← hs2, put_same, h1buf _ (by simp), hc]
        simp only [Loc.buf.injEq, true_and] at he
        have := pos_inj d n i i' (by omega) (by omega) he
        omega
      · exact f2 i (by omega)
    · rw [f3 l hl1 (fun i hi => hl2 i (by omega)), ← hs2, put_ne _ _ _ _ (hl2 m (by omega)),
        h1buf l hl1]

theorem seqPass_stable (signed : Bool) (n st mask bins : Nat) (hbins : 0 < bins) (b : Bool)
    (s : Mem w V) (hd : ∀ i, i < n → dg signed b st mask s i < bins) :
    let r := seqPass signed n st mask bins b s
    StableSort n (fun a c => digit signed st mask a < digit signed st mask c)
      (fun i => s (.buf b i)) (fun i => r.2 (.buf r.1 i)) ∧
    (∀ i, r.2 (.inp i) = s (.inp i)) ∧ (∀ i, r.2 (.out i) = s (.out i)) := by
  obtain ⟨c1, c2⟩ := seqCount_spec signed b n st mask bins s
  unfold seqPass
  generalize seqCount signed b n st mask bins s = s1 at c1 c2 ⊢
  have g1 : ∀ l, (∀ x, l ≠ .off x) → put (.off 0) (fun _ => .num 0) s1 l = s1 l := fun l hl =>
    put_ne _ _ _ _ (hl 0)
  have g2 : ((put (.off 0) (fun _ => .num 0) s1) (.off 0)).nat = 0 := by rw [put_same]; rfl
  generalize put (.off 0) (fun _ => .num 0) s1 = s2 at g1 g2 ⊢
  obtain ⟨o1, o2, o3⟩ := seqOffsets_spec n bins (dg signed b st mask s)
    ((s2 (.glob 0)).nat == n) (bins - 1) 1 s2 (Nat.le_refl _) (by omega)
    (fun x hx => by rw [g1 _ (by simp), c1 x hx])
    (fun x hx => by
      obtain rfl : x = 0 := by omega
      rw [g2]; rfl)
    (fun h => ⟨0, by rw [← c1 0 hbins, ← g1 _ (by simp)]; simpa using h⟩)
  dsimp only
  generalize seqOffsets n (List.range' 1 (bins - 1)) ((s2 (.glob 0)).nat == n) s2 = r at o1 o2 o3 ⊢
  have hpre : ∀ l, (∀ x, l ≠ .off x) → (∀ x, l ≠ .glob x) → r.2 l = s l := fun l h1 h2 => by
    rw [o1 l h1, g1 l h1, c2 l h2]
  by_cases hr : r.1 = true
  · rw [if_pos hr]
    obtain ⟨x, hx⟩ := o2 hr
    have hall := cnt_full _ _ _ hx
    refine ⟨⟨fun i => i, fun i hi => hi, fun k hk => ⟨k, hk, rfl⟩, fun i _ => ?_, fun i j hi hj => ?_⟩,
      fun i => hpre _ (by simp) (by simp), fun i => hpre _ (by simp) (by simp)⟩
    · exact hpre _ (by simp) (by simp)
    · have e1 := hall i hi
      have e2 := hall j hj
      simp only [dg] at e1 e2
      dsimp only
      rw [e1, e2]; omega
  · rw [if_neg hr]
    have ho := o3 (by simpa using hr)
    unfold seqDistribute
    obtain ⟨a1, a2⟩ := seqAdd_spec bins r.2
    generalize List.foldl _ r.2 (List.range bins) = s3 at a1 a2 ⊢
    have hpre3 : ∀ l, (∀ x, l ≠ .off x) → (∀ x, l ≠ .glob x) → s3 l = s l := fun l h1 h2 => by
      rw [a2 l (fun x _ => h2 x), hpre l h1 h2]
    obtain ⟨d1, d2⟩ := seqDist_loop signed b n st mask (dg signed b st mask s)
      (fun i => s (.buf b i)) n (Nat.le_refl _) s3 (fun i _ => hpre3 _ (by simp) (by simp))
      (fun i _ => rfl)
      (fun i hi => by
        rw [a1 _ (hd i hi), ho _ (hd i hi), o1 _ (by simp), g1 _ (by simp), c1 _ (hd i hi)]; omega)
    have hlt := fun i hi => pos_lt (dg signed b st mask s) n bins i hd hi
    refine ⟨⟨pos (dg signed b st mask s) n, hlt, surj_of_inj n _ hlt (pos_inj _ n), d1,
      fun i j hi hj => pos_lt_iff _ n i j hi hj⟩, fun i => ?_, fun i => ?_⟩
    · exact (d2 _ (by simp) (by simp)).trans (hpre3 _ (by simp) (by simp))
    · exact (d2 _ (by simp) (by simp)).trans (hpre3 _ (by simp) (by simp))

theorem seqPasses_stable (signed : Bool) (n ebit sbit : Nat) (he : ebit ≤ w) :
    ∀ (k st mask bins : Nat) (b : Bool) (s : Mem w V), ebit - st ≤ k →
    sbit ≤ st → (st < ebit → mask = (1 <<< 8) - 1 ∧ bins = 1 <<< 8) → ∀ inp : Nat → Cell w V,
    StableSort n (fun x y => field sbit (min st ebit - sbit) x.key.toNat <
      field sbit (min st ebit - sbit) y.key.toNat) inp (fun i => s (.buf b i)) →
    let r := seqPasses signed n ebit st mask bins b s
    StableSort n (fun x y => field sbit (ebit - sbit) x.key.toNat <
      field sbit (ebit - sbit) y.key.toNat) inp (fun i => r.2 (.buf r.1 i)) ∧
    (∀ i, r.2 (.inp i) = s (.inp i)) ∧ (∀ i, r.2 (.out i) = s (.out i)) := by
  intro k
  induction k with
  | zero =>
    intro st mask bins b s hk hst hm inp h
    dsimp only
    rw [seqPasses, if_neg (by omega)]
    rw [show min st ebit = ebit by omega] at h
    exact ⟨h, fun _ => rfl, fun _ => rfl⟩
  | succ k ih =>
    intro st mask bins b s hk hst hm inp h
    dsimp only
    rw [seqPasses]
    by_cases hlt : st < ebit
    · obtain ⟨rfl, rfl⟩ := hm hlt
      rw [if_pos hlt]
      by_cases h8 : st + 8 > ebit
      · rw [if_pos h8]
        obtain ⟨e1, e2⟩ := mask_shift (st + 8 - ebit) (by omega)
        rw [e1, e2, show 8 - (st + 8 - ebit) = ebit - st by omega]
        have hdf : ∀ x : Cell w V, digit signed st (2 ^ (ebit - st) - 1) x =
            field st (ebit - st) x.key.toNat :=
          fun x => digit_field signed st (ebit - st) x (by omega)
        obtain ⟨p1, p2, p3⟩ := seqPass_stable signed n st (2 ^ (ebit - st) - 1) (2 ^ (ebit - st))
          (Nat.two_pow_pos _) b s
          (fun i _ => by rw [dg, hdf]; exact Nat.mod_lt _ (Nat.two_pow_pos _))
        have := StableSort.comp h p1
          (h := fun x => field sbit (min (st + 8) ebit - sbit) x.key.toNat)
          (by
            intro x y
            rw [hdf, hdf, show min (st + 8) ebit - sbit = (min st ebit - sbit) + (ebit - st) by omega,
              field_lex, show sbit + (min st ebit - sbit) = st by omega])
        obtain ⟨i1, i2, i3⟩ := ih (st + 8) _ _ _ _ (by omega) (by omega) (by omega) inp this
        exact ⟨i1, fun i => by rw [i2, p2], fun i => by rw [i3, p3]⟩
      · rw [if_neg h8]
        have hdf : ∀ x : Cell w V, digit signed st ((1 <<< 8) - 1) x = field st 8 x.key.toNat :=
          fun x => digit_field signed st 8 x (by omega)
        obtain ⟨p1, p2, p3⟩ := seqPass_stable signed n st ((1 <<< 8) - 1) (1 <<< 8) (by decide) b s
          (fun i _ => by rw [dg, hdf]; exact Nat.mod_lt _ (by decide))
        have := StableSort.comp h p1
          (h := fun x => field sbit (min (st + 8) ebit - sbit) x.key.toNat)
          (by
            intro x y
            rw [hdf, hdf, show min (st + 8) ebit - sbit = (min st ebit - sbit) + 8 by omega, field_lex,
              show sbit + (min st ebit - sbit) = st by omega])
        obtain ⟨i1, i2, i3⟩ := ih (st + 8) _ _ _ _ (by omega) (by omega) (fun _ => ⟨rfl, rfl⟩) inp this
        exact ⟨i1, fun i => by rw [i2, p2], fun i => by rw [i3, p3]⟩
    · rw [if_neg hlt]
      rw [show min st ebit = ebit by omega] at h
      exact ⟨h, fun _ => rfl, fun _ => rfl⟩

theorem seqCopyIn (signed inPlace : Bool) (n : Nat) (s : Mem w V) :
    let s1 := (List.range n).foldl (fun s i => exec (copyIn signed inPlace i) s) s
    (∀ i, i < n → s1 (.buf false i) = (s (rd inPlace i)).bias signed) ∧
    (∀ i, s1 (.inp i) = s (.inp i)) ∧ (∀ i, s1 (.out i) = s (.out i)) := by
  induction n with
  | zero => exact ⟨fun i hi => by omega, fun _ => rfl, fun _ => rfl⟩
  | succ n ih =>
    obtain ⟨i1, i2, i3⟩ := ih
    dsimp only at i1 i2 i3 ⊢
    rw [List.range_succ, List.foldl_append]
    generalize List.foldl _ _ (List.range n) = s1 at i1 i2 i3 ⊢
    simp only [List.foldl_cons, List.foldl_nil, copyIn, exec_cons, exec_nil]
    refine ⟨fun i hi => ?_, fun i => ?_, fun i => ?_⟩
    · by_cases e : i = n
      · subst e; rw [put_same]
        cases inPlace <;> simp only [rd] <;> [exact congrArg _ (i2 i); exact congrArg _ (i3 i)]
      · rw [put_ne _ _ _ _ (by simpa using e), i1 i (by omega)]
    · rw [put_ne _ _ _ _ (by simp), i2]
    · rw [put_ne _ _ _ _ (by simp), i3]

theorem seqCopyOut (signed b : Bool) (n : Nat) (s : Mem w V) :
    let s1 := (List.range n).foldl (fun s i => exec (copyOut signed b i) s) s
    (∀ i, i < n → s1 (.out i) = (s (.buf b i)).bias signed) ∧
    (∀ l, (∀ i, i < n → l ≠ .out i) → s1 l = s l) := by
  induction n with
  | zero => exact ⟨fun i hi => by omega, fun _ _ => rfl⟩
  | succ n ih =>
    obtain ⟨i1, i2⟩ := ih
    dsimp only at i1 i2 ⊢
    rw [List.range_succ, List.foldl_append]
    generalize List.foldl _ _ (List.range n) = s1 at i1 i2 ⊢
    simp only [List.foldl_cons, List.foldl_nil, copyOut, exec_cons, exec_nil]
    refine ⟨fun i hi => ?_, fun l hl => ?_⟩
    · by_cases e : i = n
      · subst e; rw [put_same, i2 _ (by simp)]
      · rw [put_ne _ _ _ _ (by simpa using e), i1 i (by omega)]
    · rw [put_ne _ _ _ _ (hl n (by omega)), i2 l (fun i hi => hl i (by omega))]

theorem seqRadix_stable (signed inPlace : Bool) (n sbit ebit : Nat) (he : ebit ≤ w) (s : Mem w V) :
    let s' := seqRadixSort signed inPlace n sbit ebit s
    StableSort n (fun x y => field sbit (ebit - sbit) (x.bias signed).key.toNat <
        field sbit (ebit - sbit) (y.bias signed).key.toNat)
      (fun i => s (rd inPlace i)) (fun i => s' (.out i)) ∧
    (∀ i, s' (.inp i) = s (.inp i)) ∧ (∀ i, n ≤ i → s' (.out i) = s (.out i)) := by
  unfold seqRadixSort
  obtain ⟨a1, a2, a3⟩ := seqCopyIn signed inPlace n s
  dsimp only at a1 a2 a3 ⊢
  generalize List.foldl _ s (List.range n) = s1 at a1 a2 a3 ⊢
  obtain ⟨p1, p2, p3⟩ := seqPasses_stable signed n ebit sbit he (ebit - sbit) sbit
    ((1 <<< 8) - 1) (1 <<< 8) false s1 (Nat.le_refl _) (Nat.le_refl _)
    (fun _ => ⟨rfl, rfl⟩) (fun i => s1 (.buf false i))
    (StableSort.refl n (fun x : Cell w V => field sbit (min sbit ebit - sbit) x.key.toNat) _
      (fun x => by rw [show min sbit ebit - sbit = 0 by omega]; simp [field, Nat.mod_one]))
  generalize seqPasses signed n ebit sbit ((1 <<< 8) - 1) (1 <<< 8) false s1 = r at p1 p2 p3 ⊢
  obtain ⟨c1, c2⟩ := seqCopyOut signed r.1 n r.2
  refine ⟨?_, fun i => by rw [c2 _ (by simp), p2, a2],
    fun i hi => by rw [c2 _ (by simp; omega), p3, a3]⟩
  obtain ⟨q, q1, q2, q3, q4⟩ := p1
  refine ⟨q, q1, q2, fun i hi => ?_, fun i j hi hj => ?_⟩
  · dsimp only
    rw [c1 _ (q1 i hi)]
    have := q3 i hi
    dsimp only at this
    rw [this, a1 i hi, bias_bias]
  · rw [q4 i j hi hj]
    dsimp only
    rw [a1 i hi, a1 j hj]

end Verif.Radix
