import Verif.Model.MergeSort
import Verif.Proof.Segment
import Verif.Proof.Scan
import Mathlib.Tactic.Tauto
namespace Verif.MergeSort
open Verif.Phase Verif.Sort
open Verif.Scan (nwork st ed strides)

variable {α : Type} [Inhabited α]

/-- What thread `t` accesses while it works on `[a, b)`. -/
def Own (t a b : Nat) : Loc → Prop
  | .arr _ i => a ≤ i ∧ i < b
  | .left u => u = t
  | .right u => u = t
  | .go u => u = t

/-- One step stays inside `R` and depends only on `R`. -/
def OneFoot (R : Loc → Prop) (a : Mem α → Mem α) (s : Mem α) : Prop :=
  ∀ s', (∀ l, R l → s' l = s l) → (∀ l, ¬ R l → a s' l = s' l) ∧ (∀ l, R l → a s' l = a s l)

omit [Inhabited α] in
theorem agree_upd {R : Loc → Prop} {s s' : Mem α} (h : ∀ l, R l → s' l = s l) (l1 : Loc) (v : Cell α) :
    ∀ l, R l → upd s' l1 v l = upd s l1 v l := by
  intro l hl
  unfold upd
  split
  · rfl
  · exact h l hl

omit [Inhabited α] in
theorem frame_upd {R : Loc → Prop} (s : Mem α) (l1 : Loc) (hl : R l1) (v : Cell α) :
    ∀ l, ¬ R l → upd s l1 v l = s l := by
  intro l h
  exact upd_ne _ _ _ _ (fun e => h (e ▸ hl))

omit [Inhabited α] in
theorem oneFoot_set {R : Loc → Prop} (l1 : Loc) (hl : R l1) (v : Cell α) (s : Mem α) :
    OneFoot R (fun s => upd s l1 v) s :=
  fun s' h => ⟨frame_upd s' l1 hl v, agree_upd h l1 v⟩

theorem at_upd_same (s : Mem α) (o : Bool) (i : Nat) (x : α) : at_ (upd s (.arr o i) (.elt x)) o i = x := by
  unfold at_; rw [upd_same]; rfl

theorem at_upd (s : Mem α) (o : Bool) (i : Nat) (x : α) :
    at_ (upd s (.arr o i) (.elt x)) o = upd (at_ s o) i x := by
  funext j
  by_cases h : j = i
  · subst h; rw [at_upd_same, upd_same]
  · unfold at_; rw [upd_ne _ _ _ _ (by simpa using h), upd_ne _ _ _ _ h]

theorem at_upd_not (s : Mem α) (o : Bool) (i : Nat) (c : Cell α) :
    at_ (upd s (.arr (!o) i) c) o = at_ s o := by
  funext j
  unfold at_
  rw [upd_ne]
  simp

theorem at_upd_left (s : Mem α) (o : Bool) (t : Nat) (c : Cell α) : at_ (upd s (.left t) c) o = at_ s o := by
  funext j; unfold at_; rw [upd_ne _ _ _ _ (by simp)]

theorem at_upd_right (s : Mem α) (o : Bool) (t : Nat) (c : Cell α) :
    at_ (upd s (.right t) c) o = at_ s o := by
  funext j; unfold at_; rw [upd_ne _ _ _ _ (by simp)]

theorem at_upd_go (s : Mem α) (o : Bool) (t : Nat) (c : Cell α) : at_ (upd s (.go t) c) o = at_ s o := by
  funext j; unfold at_; rw [upd_ne _ _ _ _ (by simp)]

/-! ### Merging -/

/-- `!b[k] = b[left++]` -/
def takeL (t : Nat) (b : Bool) (k : Nat) (s : Mem α) : Mem α :=
  upd (upd s (.arr (!b) k) (.elt (at_ s b (s (.left t)).nat))) (.left t) (.num ((s (.left t)).nat + 1))

/-- `!b[k] = b[right++]` -/
def takeR (t : Nat) (b : Bool) (k : Nat) (s : Mem α) : Mem α :=
  upd (upd s (.arr (!b) k) (.elt (at_ s b (s (.right t)).nat))) (.right t)
    (.num ((s (.right t)).nat + 1))

theorem mergeStep_cases (lt : α → α → Bool) (t : Nat) (b : Bool) (mid rr k : Nat) (s : Mem α) :
    let L := (s (.left t)).nat
    let R := (s (.right t)).nat
    (L < mid ∧ (R < rr → lt (at_ s b R) (at_ s b L) = false) ∧
      mergeStep lt t b mid rr k s = takeL t b k s) ∨
    (R < rr ∧ (L < mid → lt (at_ s b R) (at_ s b L) = true) ∧
      mergeStep lt t b mid rr k s = takeR t b k s) ∨
    (¬ L < mid ∧ ¬ R < rr ∧ mergeStep lt t b mid rr k s = s) := by
  intro L R
  unfold mergeStep takeL takeR
  by_cases hL : L < mid <;> by_cases hR : R < rr
  · rw [if_pos ⟨hL, hR⟩]
    by_cases hlt : lt (at_ s b R) (at_ s b L) = true
    · right; left
      refine ⟨hR, fun _ => hlt, ?_⟩
      rw [if_neg (by simpa using hlt)]
    · left
      refine ⟨hL, fun _ => by simpa using hlt, ?_⟩
      rw [if_pos (by simpa using hlt)]
  · rw [if_neg (by tauto), if_pos hL]
    exact .inl ⟨hL, fun h => absurd h hR, rfl⟩
  · rw [if_neg (by tauto), if_neg hL, if_pos hR]
    exact .inr (.inl ⟨hR, fun h => absurd h hL, rfl⟩)
  · rw [if_neg (by tauto), if_neg hL, if_neg hR]
    exact .inr (.inr ⟨hL, hR, rfl⟩)

/-- The state reached by a merge after writing `[ll, k)`. -/
structure MergeInv (lt : α → α → Bool) (t : Nat) (b : Bool) (ll mid rr k : Nat) (s0 s : Mem α) : Prop where
  llk : ll ≤ k
  L1 : ll ≤ (s (.left t)).nat
  L2 : (s (.left t)).nat ≤ mid
  R1 : mid ≤ (s (.right t)).nat
  R2 : (s (.right t)).nat ≤ rr
  cnt : (s (.left t)).nat + (s (.right t)).nat = k + mid
  src : at_ s b = at_ s0 b
  frame : ∀ l, l ≠ .left t → l ≠ .right t → (∀ i, ll ≤ i → i < rr → l ≠ .arr (!b) i) → s l = s0 l
  place : ∃ pos, Place lt ll rr k (fun i => (ll ≤ i ∧ i < (s (.left t)).nat) ∨
    (mid ≤ i ∧ i < (s (.right t)).nat)) pos (at_ s0 b) (at_ s (!b))

theorem mergeInv_step {lt : α → α → Bool} (hl : StrictWeak lt) {t : Nat} {b : Bool}
    {ll mid rr k : Nat} {s0 s : Mem α} (hm : ll ≤ mid) (hmr : mid ≤ rr)
    (h1 : ∀ i j, ll ≤ i → i < j → j < mid → lt (at_ s0 b j) (at_ s0 b i) = false)
    (h2 : ∀ i j, mid ≤ i → i < j → j < rr → lt (at_ s0 b j) (at_ s0 b i) = false)
    (hk : k < rr) (h : MergeInv lt t b ll mid rr k s0 s) :
    MergeInv lt t b ll mid rr (k + 1) s0 (mergeStep lt t b mid rr k s) := by
  obtain ⟨h0, L1, L2, R1, R2, cnt, src, frame, pos, pl⟩ := h
  rcases mergeStep_cases lt t b mid rr k s with ⟨c1, c2, e⟩ | ⟨c1, c2, e⟩ | ⟨c1, c2, e⟩
  · rw [e]
    have el : (takeL t b k s (.left t)).nat = (s (.left t)).nat + 1 := by
      unfold takeL; rw [upd_same]; rfl
    have er : (takeL t b k s (.right t)).nat = (s (.right t)).nat := by
      unfold takeL; rw [upd_ne _ _ _ _ (by simp), upd_ne _ _ _ _ (by simp)]
    generalize hL : (s (.left t)).nat = L at *
    generalize hR : (s (.right t)).nat = R at *
    refine ⟨by omega, by omega, by omega, by omega, by omega, by omega, ?_, ?_, ?_⟩
    · unfold takeL; rw [at_upd_left, at_upd_not, src]
    · intro l n1 n2 n3
      unfold takeL
      rw [upd_ne _ _ _ _ n1, upd_ne _ _ _ _ (n3 k h0 hk), frame l n1 n2 n3]
    · refine ⟨upd pos L k, ?_⟩
      have hy : at_ (takeL t b k s) (!b) = upd (at_ s (!b)) k (at_ s0 b L) := by
        unfold takeL; rw [at_upd_left, at_upd, hL, src]
      rw [hy, el, er]
      refine (pl.step hl L (by omega) h0 (by omega) (by omega) ?_).congr (fun i => by omega)
      intro j hj hS j1 j2
      rw [src] at c2
      by_cases hjm : j < mid
      · exact .of_le (h1 L j L1 (by omega) hjm) (by omega)
      · have hRj : R ≤ j := by omega
        have hc := c2 (by omega)
        refine .of_le ?_ (by omega)
        by_cases hRj' : R = j
        · rw [← hRj']; exact hc
        · exact hl.le_trans hc (h2 R j R1 (by omega) j2)
  · rw [e]
    have el : (takeR t b k s (.left t)).nat = (s (.left t)).nat := by
      unfold takeR; rw [upd_ne _ _ _ _ (by simp), upd_ne _ _ _ _ (by simp)]
    have er : (takeR t b k s (.right t)).nat = (s (.right t)).nat + 1 := by
      unfold takeR; rw [upd_same]; rfl
    generalize hL : (s (.left t)).nat = L at *
    generalize hR : (s (.right t)).nat = R at *
    refine ⟨by omega, by omega, by omega, by omega, by omega, by omega, ?_, ?_, ?_⟩
    · unfold takeR; rw [at_upd_right, at_upd_not, src]
    · intro l n1 n2 n3
      unfold takeR
      rw [upd_ne _ _ _ _ n2, upd_ne _ _ _ _ (n3 k h0 hk), frame l n1 n2 n3]
    · refine ⟨upd pos R k, ?_⟩
      have hy : at_ (takeR t b k s) (!b) = upd (at_ s (!b)) k (at_ s0 b R) := by
        unfold takeR; rw [at_upd_right, at_upd, hR, src]
      rw [hy, el, er]
      refine (pl.step hl R (by omega) h0 (by omega) (by omega) ?_).congr (fun i => by omega)
      intro j hj hS j1 j2
      rw [src] at c2
      by_cases hjm : j < mid
      · have hc := c2 (by omega)
        left
        by_cases hLj : L = j
        · rw [← hLj]; exact hc
        · rcases hl.incomp _ (at_ s0 b j) _ hc with h5 | h5
          · exact h5
          · rw [h1 L j L1 (by omega) hjm] at h5; exact absurd h5 (by decide)
      · exact .of_le (h2 R j R1 (by omega) j2) (by omega)
  · omega

theorem mergeStep_foot (lt : α → α → Bool) (t : Nat) (b : Bool) (mid rr k u v : Nat) (s : Mem α)
    (hL : u ≤ (s (.left t)).nat) (hR : u ≤ (s (.right t)).nat) (hm : mid ≤ v) (hr : rr ≤ v)
    (hk : u ≤ k) (hk' : k < v) : OneFoot (Own t u v) (mergeStep lt t b mid rr k) s := by
  intro s' h
  have el := h (.left t) rfl
  have er := h (.right t) rfl
  have ea : ∀ i, u ≤ i → i < v → at_ s' b i = at_ s b i := by
    intro i h1 h2; unfold at_; rw [h (.arr b i) ⟨h1, h2⟩]
  unfold mergeStep
  rw [el, er]
  generalize hL' : (s (.left t)).nat = L at *
  generalize hR' : (s (.right t)).nat = R at *
  have oa : Own t u v (.arr (!b) k) := ⟨hk, hk'⟩
  have ol : Own t u v (.left t) := rfl
  have or' : Own t u v (.right t) := rfl
  have gen : ∀ (l2 : Loc) (v1 v2 : Cell α), Own t u v l2 →
      (∀ l, ¬ Own t u v l → upd (upd s' (.arr (!b) k) v1) l2 v2 l = s' l) ∧
      (∀ l, Own t u v l → upd (upd s' (.arr (!b) k) v1) l2 v2 l =
        upd (upd s (.arr (!b) k) v1) l2 v2 l) := by
    intro l2 v1 v2 h2
    refine ⟨fun l hl => ?_, agree_upd (agree_upd h _ _) _ _⟩
    rw [frame_upd _ _ h2 _ l hl, frame_upd _ _ oa _ l hl]
  by_cases h1 : L < mid <;> by_cases h2 : R < rr
  · simp only [if_pos (And.intro h1 h2)]
    rw [ea L hL (by omega), ea R hR (by omega)]
    split
    · exact gen _ _ _ ol
    · exact gen _ _ _ or'
  · have h3 : ¬ (L < mid ∧ R < rr) := by omega
    simp only [if_neg h3, if_pos h1]
    rw [ea L hL (by omega)]
    exact gen _ _ _ ol
  · have h3 : ¬ (L < mid ∧ R < rr) := by omega
    simp only [if_neg h3, if_neg h1, if_pos h2]
    rw [ea R hR (by omega)]
    exact gen _ _ _ or'
  · have h3 : ¬ (L < mid ∧ R < rr) := by omega
    simp only [if_neg h3, if_neg h1, if_neg h2]
    exact ⟨fun _ _ => trivial, h⟩

theorem mergeStep_mono (lt : α → α → Bool) (t : Nat) (b : Bool) (mid rr k : Nat) (s : Mem α) :
    (s (.left t)).nat ≤ (mergeStep lt t b mid rr k s (.left t)).nat ∧
    (s (.right t)).nat ≤ (mergeStep lt t b mid rr k s (.right t)).nat := by
  rcases mergeStep_cases lt t b mid rr k s with ⟨_, _, e⟩ | ⟨_, _, e⟩ | ⟨_, _, e⟩ <;> rw [e]
  · unfold takeL
    rw [upd_same, upd_ne _ _ _ _ (by simp), upd_ne _ _ _ _ (by simp)]
    exact ⟨Nat.le_succ _, Nat.le_refl _⟩
  · unfold takeR
    rw [upd_ne _ _ _ _ (by simp), upd_ne _ _ _ _ (by simp), upd_same]
    exact ⟨Nat.le_refl _, Nat.le_succ _⟩
  · exact ⟨Nat.le_refl _, Nat.le_refl _⟩

theorem mergeLoop_foot (lt : α → α → Bool) (t : Nat) (b : Bool) (mid rr u v : Nat) (hm : mid ≤ v)
    (hr : rr ≤ v) (n k : Nat) (hk : u ≤ k) (hk' : k + n ≤ v) (s : Mem α)
    (hL : u ≤ (s (.left t)).nat) (hR : u ≤ (s (.right t)).nat) :
    FootFrom (Own t u v) (Own t u v) ((List.range' k n).map (mergeStep lt t b mid rr)) s := by
  induction n generalizing k s with
  | zero => trivial
  | succ n ih =>
    rw [List.range'_succ, List.map_cons]
    have := mergeStep_mono lt t b mid rr k s
    exact ⟨mergeStep_foot lt t b mid rr k u v s hL hR hm hr hk (by omega),
      ih (k + 1) (by omega) (by omega) _ (by omega) (by omega)⟩

theorem merge_foot (lt : α → α → Bool) (t : Nat) (b : Bool) (ll mid rr u v : Nat) (hll : u ≤ ll)
    (hmid : u ≤ mid) (hm : mid ≤ v) (hr : rr ≤ v) (s : Mem α) :
    FootFrom (Own t u v) (Own t u v) (merge lt t b ll mid rr) s := by
  refine ⟨oneFoot_set _ (show Own t u v (.left t) from rfl) _ s,
    oneFoot_set _ (show Own t u v (.right t) from rfl) _ _, ?_⟩
  by_cases h : ll ≤ rr
  · apply mergeLoop_foot lt t b mid rr u v hm hr _ _ hll (by omega)
    · dsimp only
      rw [upd_ne _ _ _ _ (by simp), upd_same]; exact hll
    · dsimp only
      rw [upd_same]; exact hmid
  · have : rr - ll = 0 := by omega
    rw [this]; trivial

theorem mergeInv_loop {lt : α → α → Bool} (hl : StrictWeak lt) {t : Nat} {b : Bool}
    {ll mid rr : Nat} {s0 s : Mem α} (hm : ll ≤ mid) (hmr : mid ≤ rr)
    (h1 : ∀ i j, ll ≤ i → i < j → j < mid → lt (at_ s0 b j) (at_ s0 b i) = false)
    (h2 : ∀ i j, mid ≤ i → i < j → j < rr → lt (at_ s0 b j) (at_ s0 b i) = false)
    (n : Nat) (hn : ll + n ≤ rr) (h : MergeInv lt t b ll mid rr ll s0 s) :
    MergeInv lt t b ll mid rr (ll + n) s0
      (exec ((List.range' ll n).map (mergeStep lt t b mid rr)) s) := by
  induction n with
  | zero => exact h
  | succ n ih =>
    rw [List.range'_1_concat, List.map_append, exec_append]
    exact mergeInv_step (k := ll + n) hl hm hmr h1 h2 (by omega) (ih (by omega))

/-- A merge of two sorted segments is the stable sort of both, and changes nothing else. -/
theorem merge_spec {lt : α → α → Bool} (hl : StrictWeak lt) (t : Nat) (b : Bool)
    {ll mid rr : Nat} (s : Mem α) (hm : ll ≤ mid) (hmr : mid ≤ rr)
    (h1 : ∀ i j, ll ≤ i → i < j → j < mid → lt (at_ s b j) (at_ s b i) = false)
    (h2 : ∀ i j, mid ≤ i → i < j → j < rr → lt (at_ s b j) (at_ s b i) = false) :
    SegStable lt ll rr (at_ s b) (at_ (exec (merge lt t b ll mid rr) s) (!b)) ∧
      (∀ l, l ≠ .left t → l ≠ .right t → (∀ i, ll ≤ i → i < rr → l ≠ .arr (!b) i) →
        exec (merge lt t b ll mid rr) s l = s l) := by
  have hi : MergeInv lt t b ll mid rr ll s (upd (upd s (.left t) (.num ll)) (.right t) (.num mid)) := by
    have el : (upd (upd s (.left t) (.num ll)) (.right t) (.num mid) (.left t)).nat = ll := by
      rw [upd_ne _ _ _ _ (by simp), upd_same]; rfl
    have er : (upd (upd s (.left t) (.num ll)) (.right t) (.num mid) (.right t)).nat = mid := by
      rw [upd_same]; rfl
    refine ⟨Nat.le_refl _, by omega, by omega, by omega, by omega, by omega, ?_, ?_, id, ?_⟩
    · rw [at_upd_right, at_upd_left]
    · intro l n1 n2 _; rw [upd_ne _ _ _ _ n2, upd_ne _ _ _ _ n1]
    · rw [el, er]
      exact (Place.init lt ll rr _ _).congr (fun i => by simp only [false_iff]; omega)
  have := mergeInv_loop hl hm hmr h1 h2 (rr - ll) (by omega) hi
  rw [show ll + (rr - ll) = rr by omega] at this
  obtain ⟨_, L1, L2, R1, R2, cnt, src, frame, pos, pl⟩ := this
  exact ⟨pl.full (fun i i1 i2 => by omega), frame⟩

/-! ### Insertion sort -/

/-- The state of the insertion of element `i` into `[ll, i)` after `d` iterations. -/
structure InsInv (lt : α → α → Bool) (t ll i d p : Nat) (s0 s : Mem α) : Prop where
  p1 : ll ≤ p
  p2 : p ≤ i
  low : ∀ c, ll ≤ c → c < p → at_ s false c = at_ s0 false c
  mid : at_ s false p = at_ s0 false i
  high : ∀ c, p ≤ c → c < i → at_ s false (c + 1) = at_ s0 false c
  gt : ∀ c, p ≤ c → c < i → lt (at_ s0 false i) (at_ s0 false c) = true
  ctl : ((s (.go t)).nat = 1 ∧ p = i - d) ∨
    ((s (.go t)).nat = 0 ∧ ll < p ∧ lt (at_ s0 false i) (at_ s0 false (p - 1)) = false)
  frame : ∀ l, l ≠ .go t → (∀ c, ll ≤ c → c ≤ i → l ≠ .arr false c) → s l = s0 l

theorem insInv_step {lt : α → α → Bool} {t ll i d p : Nat} {s0 s : Mem α} (hd : d < i - ll)
    (h : InsInv lt t ll i d p s0 s) :
    ∃ p', InsInv lt t ll i (d + 1) p' s0 (insertStep lt t (i - d) s) := by
  obtain ⟨p1, p2, low, mid, high, gt, ctl, frame⟩ := h
  unfold insertStep
  rcases ctl with ⟨g, e⟩ | ⟨g, e1, e2⟩
  · rw [if_pos g, ← e, mid, low (p - 1) (by omega) (by omega)]
    by_cases hc : lt (at_ s0 false i) (at_ s0 false (p - 1)) = true
    · rw [if_pos hc]
      have ea : at_ (upd (upd s (.arr false p) (.elt (at_ s0 false (p - 1)))) (.arr false (p - 1))
          (.elt (at_ s0 false i))) false =
          upd (upd (at_ s false) p (at_ s0 false (p - 1))) (p - 1) (at_ s0 false i) := by
        rw [at_upd, at_upd]
      refine ⟨p - 1, by omega, by omega, ?_, ?_, ?_, ?_, .inl ⟨?_, by omega⟩, ?_⟩
      · intro c h1 h2
        rw [ea, upd_ne _ _ _ _ (by omega), upd_ne _ _ _ _ (by omega), low c h1 (by omega)]
      · rw [ea, upd_same]
      · intro c h1 h2
        rw [ea, upd_ne _ _ _ _ (by omega)]
        by_cases hcp : c + 1 = p
        · rw [hcp, upd_same, ← hcp]; rfl
        · rw [upd_ne _ _ _ _ hcp, high c (by omega) h2]
      · intro c h1 h2
        by_cases hcp : c = p - 1
        · rw [hcp]; exact hc
        · exact gt c (by omega) h2
      · rw [upd_ne _ _ _ _ (by simp), upd_ne _ _ _ _ (by simp), g]
      · intro l n1 n2
        rw [upd_ne _ _ _ _ (n2 _ (by omega) (by omega)), upd_ne _ _ _ _ (n2 _ (by omega) (by omega)),
          frame l n1 n2]
    · rw [if_neg hc]
      refine ⟨p, p1, p2, ?_, ?_, ?_, gt, .inr ⟨?_, by omega, by simpa using hc⟩, ?_⟩
      · rw [at_upd_go]; exact low
      · rw [at_upd_go]; exact mid
      · rw [at_upd_go]; exact high
      · rw [upd_same]; rfl
      · intro l n1 n2; rw [upd_ne _ _ _ _ n1, frame l n1 n2]
  · rw [if_neg (by omega)]
    exact ⟨p, p1, p2, low, mid, high, gt, .inr ⟨g, e1, e2⟩, frame⟩

theorem insertOne_spec {lt : α → α → Bool} (hl : StrictWeak lt) (t : Nat) {ll i : Nat} (s : Mem α)
    (hi : ll ≤ i)
    (hx : ∀ c d, ll ≤ c → c < d → d < i → lt (at_ s false d) (at_ s false c) = false) :
    SegStable lt ll (i + 1) (at_ s false) (at_ (exec (insertOne lt t ll i) s) false) ∧
      (∀ l, l ≠ .go t → (∀ c, ll ≤ c → c ≤ i → l ≠ .arr false c) →
        exec (insertOne lt t ll i) s l = s l) := by
  have key : ∀ n, n ≤ i - ll → ∃ p, InsInv lt t ll i n p s
      (exec ((List.range n).map (fun d => insertStep lt t (i - d))) (upd s (.go t) (.num 1))) := by
    intro n
    induction n with
    | zero =>
      intro _
      refine ⟨i, hi, Nat.le_refl _, ?_, ?_, fun c h1 h2 => by omega, fun c h1 h2 => by omega,
        .inl ⟨?_, rfl⟩, ?_⟩
      · intro c _ _; rw [List.range_zero, List.map_nil, exec_nil, at_upd_go]
      · rw [List.range_zero, List.map_nil, exec_nil, at_upd_go]
      · rw [List.range_zero, List.map_nil, exec_nil, upd_same]; rfl
      · intro l n1 _; rw [List.range_zero, List.map_nil, exec_nil, upd_ne _ _ _ _ n1]
    | succ n ih =>
      intro hn
      obtain ⟨p, hp⟩ := ih (by omega)
      rw [List.range_succ, List.map_append, exec_append]
      exact insInv_step (by omega) hp
  obtain ⟨p, p1, p2, low, mid, high, gt, ctl, frame⟩ := key (i - ll) (Nat.le_refl _)
  refine ⟨insert_stable hl hx p1 p2 low mid high gt ?_, frame⟩
  rcases ctl with ⟨_, e⟩ | ⟨_, _, e⟩
  · left; omega
  · exact .inr e

theorem insertStep_foot (lt : α → α → Bool) (t k u v : Nat) (s : Mem α) (hk : u < k) (hk' : k < v) :
    OneFoot (Own t u v) (insertStep lt t k) s := by
  intro s' h
  have eg := h (.go t) rfl
  have o1 : Own t u v (.arr false k) := ⟨by omega, hk'⟩
  have o2 : Own t u v (.arr false (k - 1)) := ⟨by omega, by omega⟩
  have og : Own t u v (.go t) := rfl
  have e1 : at_ s' false k = at_ s false k := by unfold at_; rw [h _ o1]
  have e2 : at_ s' false (k - 1) = at_ s false (k - 1) := by unfold at_; rw [h _ o2]
  unfold insertStep
  rw [eg, e1, e2]
  by_cases hg : (s (.go t)).nat = 1
  · simp only [if_pos hg]
    by_cases hc : lt (at_ s false k) (at_ s false (k - 1)) = true
    · simp only [if_pos hc]
      refine ⟨fun l hl => ?_, agree_upd (agree_upd h _ _) _ _⟩
      rw [frame_upd _ _ o2 _ l hl, frame_upd _ _ o1 _ l hl]
    · simp only [if_neg hc]
      exact ⟨frame_upd _ _ og _, agree_upd h _ _⟩
  · simp only [if_neg hg]
    exact ⟨fun _ _ => trivial, h⟩

omit [Inhabited α] in
theorem footFrom_list {R : Loc → Prop} (p : List (Mem α → Mem α)) (s : Mem α)
    (h : ∀ a ∈ p, ∀ s, OneFoot R a s) : FootFrom R R p s := by
  induction p generalizing s with
  | nil => trivial
  | cons a p ih => exact ⟨h a (by simp) s, ih _ (fun b hb => h b (by simp [hb]))⟩

theorem insertOne_foot (lt : α → α → Bool) (t ll i u v : Nat) (hll : u ≤ ll) (hi : i < v) :
    ∀ a ∈ insertOne lt t ll i, ∀ s, OneFoot (Own t u v) a s := by
  intro a ha s
  simp only [insertOne, List.mem_cons, List.mem_map, List.mem_range] at ha
  rcases ha with rfl | ⟨d, hd, rfl⟩
  · exact oneFoot_set _ (show Own t u v (.go t) from rfl) _ s
  · exact insertStep_foot lt t _ u v s (by omega) (by omega)

/-- Insertion sort of a segment. -/
theorem insertion_spec {lt : α → α → Bool} (hl : StrictWeak lt) (t : Nat) (ll rr : Nat) (s : Mem α) :
    SegStable lt ll rr (at_ s false) (at_ (exec (insertion lt t ll rr) s) false) ∧
      (∀ l, l ≠ .go t → (∀ c, ll ≤ c → c < rr → l ≠ .arr false c) →
        exec (insertion lt t ll rr) s l = s l) := by
  have key : ∀ n, ll + 1 + n ≤ rr →
      let s' := exec ((List.range' (ll + 1) n).flatMap (insertOne lt t ll)) s
      SegStable lt ll (ll + 1 + n) (at_ s false) (at_ s' false) ∧
      (∀ l, l ≠ .go t → (∀ c, ll ≤ c → c < ll + 1 + n → l ≠ .arr false c) → s' l = s l) := by
    intro n
    induction n with
    | zero => intro _; exact ⟨.short hl (Nat.le_refl _), fun _ _ _ => rfl⟩
    | succ n ih =>
      intro hn
      obtain ⟨i1, i2⟩ := ih (by omega)
      dsimp only at *
      rw [List.range'_1_concat, List.flatMap_append, exec_append]
      simp only [List.flatMap_cons, List.flatMap_nil, List.append_nil]
      generalize exec ((List.range' (ll + 1) n).flatMap (insertOne lt t ll)) s = s1 at *
      obtain ⟨j1, j2⟩ := insertOne_spec hl t s1 (ll := ll) (i := ll + 1 + n) (by omega)
        (fun c d h1 h2 h3 => i1.sorted c d h1 h2 h3)
      constructor
      · refine SegStable.merge (m := ll + 1 + n) i1 ?_ (by omega) (by omega) j1
        refine (SegStable.short hl (x := at_ s false) (by omega)).congr (fun _ _ _ => rfl) ?_
        intro c h1 h2
        unfold at_
        rw [i2 _ (by simp) (by intro c' _ h; simp; omega)]
      · intro l n1 n2
        rw [j2 l n1 (fun c h1 h2 => n2 c h1 (by omega)), i2 l n1 (fun c h1 h2 => n2 c h1 (by omega))]
  unfold insertion
  by_cases h : ll + 1 ≤ rr
  · have := key (rr - (ll + 1)) (by omega)
    rw [show ll + 1 + (rr - (ll + 1)) = rr by omega] at this
    exact this
  · have : rr - (ll + 1) = 0 := by omega
    rw [this]
    exact ⟨.short hl (by omega), fun _ _ _ => rfl⟩

theorem insertion_foot (lt : α → α → Bool) (t ll rr u v : Nat) (hll : u ≤ ll) (hr : rr ≤ v) :
    ∀ a ∈ insertion lt t ll rr, ∀ s, OneFoot (Own t u v) a s := by
  intro a ha s
  simp only [insertion, List.mem_flatMap, List.mem_range'_1] at ha
  obtain ⟨i, hi, ha⟩ := ha
  exact insertOne_foot lt t ll i u v hll (by omega) a ha s

/-! ### Rounds -/

/-- Every block of `w` elements of `[l, r)` of `y` is the stable sort of that block of `x`. -/
def Blocks (lt : α → α → Bool) (w l r : Nat) (x y : Nat → α) : Prop :=
  ∀ q, SegStable lt (l + q * w) (min (l + q * w + w) r) x y

theorem segCount_lt {w l r q : Nat} (hw : 0 < w) (h : q < segCount w l r) : l + q * w < r := by
  have h2 : (q + 1) * w ≤ r - l + w - 1 := (Nat.le_div_iff_mul_le hw).1 h
  rw [Nat.add_mul, Nat.one_mul] at h2
  omega

theorem segCount_le {w l r q : Nat} (hw : 0 < w) (h : segCount w l r ≤ q) : r ≤ l + q * w := by
  have h2 : r - l + w - 1 < (q + 1) * w := (Nat.div_lt_iff_lt_mul hw).1 (Nat.lt_succ_of_le h)
  rw [Nat.add_mul, Nat.one_mul] at h2
  omega

theorem mul_mono_succ {q m w : Nat} (h : q < m) : q * w + w ≤ m * w := by
  have := Nat.mul_le_mul_right w h
  rwa [Nat.succ_mul] at this

theorem insertionAll_spec {lt : α → α → Bool} (hl : StrictWeak lt) (t l r : Nat) (s : Mem α) :
    Blocks lt 16 l r (at_ s false) (at_ (exec (insertionAll lt t l r) s) false) ∧
      (∀ x, x ≠ .go t → (∀ c, l ≤ c → c < r → x ≠ .arr false c) →
        exec (insertionAll lt t l r) s x = s x) := by
  have key : ∀ m, m ≤ segCount 16 l r →
      let s' := exec ((List.range m).flatMap fun q =>
        insertion lt t (l + q * 16) (min (l + q * 16 + 16) r)) s
      (∀ q, q < m → SegStable lt (l + q * 16) (min (l + q * 16 + 16) r) (at_ s false) (at_ s' false)) ∧
      (∀ x, x ≠ .go t → (∀ c, l ≤ c → c < min (l + m * 16) r → x ≠ .arr false c) → s' x = s x) := by
    intro m
    induction m with
    | zero => intro _; exact ⟨fun q hq => by omega, fun _ _ _ => rfl⟩
    | succ m ih =>
      intro hm
      obtain ⟨i1, i2⟩ := ih (by omega)
      have hmr := segCount_lt (by decide) hm
      dsimp only at *
      rw [List.range_succ, List.flatMap_append, exec_append]
      simp only [List.flatMap_cons, List.flatMap_nil, List.append_nil]
      generalize exec ((List.range m).flatMap fun q =>
        insertion lt t (l + q * 16) (min (l + q * 16 + 16) r)) s = s1 at *
      obtain ⟨j1, j2⟩ := insertion_spec hl t (l + m * 16) (min (l + m * 16 + 16) r) s1
      constructor
      · intro q hq
        by_cases hqm : q < m
        · refine (i1 q hqm).congr (fun _ _ _ => rfl) ?_
          intro c h1 h2
          unfold at_
          rw [j2 _ (by simp) (by intro c' _ _; simp; omega)]
        · obtain rfl : q = m := by omega
          refine j1.congr ?_ (fun _ _ _ => rfl)
          intro c h1 h2
          unfold at_
          rw [i2 _ (by simp) (by intro c' _ _; simp; omega)]
      · intro x n1 n2
        rw [j2 x n1 (fun c h1 h2 => n2 c (by omega) (by omega)),
          i2 x n1 (fun c h1 h2 => n2 c h1 (by omega))]
  obtain ⟨k1, k2⟩ := key _ (Nat.le_refl _)
  refine ⟨fun q => ?_, fun x n1 n2 => k2 x n1 (fun c h1 h2 => n2 c h1 (by omega))⟩
  by_cases hq : q < segCount 16 l r
  · exact k1 q hq
  · have := segCount_le (w := 16) (l := l) (r := r) (by decide) (Nat.le_of_not_lt hq)
    exact .empty (by omega)

theorem insertionAll_foot (lt : α → α → Bool) (t l r : Nat) :
    ∀ a ∈ insertionAll lt t l r, ∀ s, OneFoot (Own t l r) a s := by
  intro a ha s
  simp only [insertionAll, List.mem_flatMap, List.mem_range] at ha
  obtain ⟨q, hq, ha⟩ := ha
  exact insertion_foot lt t _ _ l r (by omega) (by omega) a ha s

theorem round_spec {lt : α → α → Bool} (hl : StrictWeak lt) (t : Nat) (b : Bool) (hs l r : Nat)
    (h0 : 0 < hs) (x : Nat → α) (s : Mem α) (hb : Blocks lt hs l r x (at_ s b)) :
    Blocks lt (hs * 2) l r x (at_ (exec (round lt t b hs l r) s) (!b)) ∧
      (∀ y, y ≠ .left t → y ≠ .right t → (∀ c, l ≤ c → c < r → y ≠ .arr (!b) c) →
        exec (round lt t b hs l r) s y = s y) := by
  have key : ∀ m, m ≤ segCount (hs * 2) l r →
      let s' := exec ((List.range m).flatMap fun q =>
        merge lt t b (l + q * (hs * 2)) (min (l + q * (hs * 2) + hs) r)
          (min (l + q * (hs * 2) + hs * 2) r)) s
      (∀ q, q < m → SegStable lt (l + q * (hs * 2)) (min (l + q * (hs * 2) + hs * 2) r) x (at_ s' (!b))) ∧
      (∀ y, y ≠ .left t → y ≠ .right t →
        (∀ c, l ≤ c → c < min (l + m * (hs * 2)) r → y ≠ .arr (!b) c) → s' y = s y) := by
    intro m
    induction m with
    | zero => intro _; exact ⟨fun q hq => by omega, fun _ _ _ _ => rfl⟩
    | succ m ih =>
      intro hm
      obtain ⟨i1, i2⟩ := ih (by omega)
      have hmr := segCount_lt (by omega) hm
      have hb1 := hb (2 * m)
      have hb2 := hb (2 * m + 1)
      have e1 : 2 * m * hs = m * (hs * 2) := by rw [Nat.mul_comm 2 m, Nat.mul_assoc, Nat.mul_comm 2 hs]
      have e2 : (2 * m + 1) * hs = m * (hs * 2) + hs := by rw [Nat.add_mul, Nat.one_mul, e1]
      have e3 : (m + 1) * (hs * 2) = m * (hs * 2) + hs * 2 := by rw [Nat.add_mul, Nat.one_mul]
      rw [e1] at hb1
      rw [e2] at hb2
      rw [e3]
      dsimp only at *
      rw [List.range_succ, List.flatMap_append, exec_append]
      simp only [List.flatMap_cons, List.flatMap_nil, List.append_nil]
      generalize exec ((List.range m).flatMap fun q =>
        merge lt t b (l + q * (hs * 2)) (min (l + q * (hs * 2) + hs) r)
          (min (l + q * (hs * 2) + hs * 2) r)) s = s1 at *
      have hmono : ∀ q, q < m → q * (hs * 2) + hs * 2 ≤ m * (hs * 2) := fun q hq => mul_mono_succ hq
      generalize hM : m * (hs * 2) = M at *
      have hsrc : at_ s1 b = at_ s b := by
        funext c; unfold at_; rw [i2 _ (by simp) (by simp) (by intro c' _ _; simp)]
      have sa : SegStable lt (l + M) (min (l + M + hs) r) x (at_ s1 b) := by rw [hsrc]; exact hb1
      have sb : SegStable lt (min (l + M + hs) r) (min (l + M + hs * 2) r) x (at_ s1 b) := by
        rw [hsrc]
        by_cases hh : l + M + hs < r
        · rw [Nat.min_eq_left (Nat.le_of_lt hh)]
          rw [show l + (M + hs) = l + M + hs by omega, show l + M + hs + hs = l + M + hs * 2 by omega]
            at hb2
          exact hb2
        · exact .empty (by omega)
      obtain ⟨j1, j2⟩ := merge_spec hl t b s1 (ll := l + M) (mid := min (l + M + hs) r)
        (rr := min (l + M + hs * 2) r) (by omega) (by omega) sa.sorted sb.sorted
      constructor
      · intro q hq
        by_cases hqm : q < m
        · have := hmono q hqm
          refine (i1 q hqm).congr (fun _ _ _ => rfl) ?_
          intro c h1 h2
          unfold at_
          rw [j2 _ (by simp) (by simp) (by intro c' _ _; simp; omega)]
        · obtain rfl : q = m := by omega
          rw [hM]
          exact SegStable.merge sa sb (by omega) (by omega) j1
      · intro y n1 n2 n3
        rw [j2 y n1 n2 (fun c h1 h2 => n3 c (by omega) (by omega)),
          i2 y n1 n2 (fun c h1 h2 => n3 c h1 (by omega))]
  obtain ⟨k1, k2⟩ := key _ (Nat.le_refl _)
  refine ⟨fun q => ?_, fun y n1 n2 n3 => k2 y n1 n2 (fun c h1 h2 => n3 c h1 (by omega))⟩
  by_cases hq : q < segCount (hs * 2) l r
  · exact k1 q hq
  · have := segCount_le (w := hs * 2) (l := l) (r := r) (by omega) (Nat.le_of_not_lt hq)
    exact .empty (by omega)

theorem round_foot (lt : α → α → Bool) (t : Nat) (b : Bool) (hs l r : Nat) (h0 : 0 < hs) (s : Mem α) :
    FootFrom (Own t l r) (Own t l r) (round lt t b hs l r) s := by
  have key : ∀ m, m ≤ segCount (hs * 2) l r → FootFrom (Own t l r) (Own t l r)
      ((List.range m).flatMap fun q =>
        merge lt t b (l + q * (hs * 2)) (min (l + q * (hs * 2) + hs) r)
          (min (l + q * (hs * 2) + hs * 2) r)) s := by
    intro m
    induction m with
    | zero => intro _; trivial
    | succ m ih =>
      intro hm
      have := segCount_lt (by omega) hm
      rw [List.range_succ, List.flatMap_append]
      refine footFrom_append _ _ _ (ih (by omega)) ?_
      simp only [List.flatMap_cons, List.flatMap_nil, List.append_nil]
      exact merge_foot lt t b _ _ _ l r (by omega) (by omega) (by omega) (by omega) _
  exact key _ (Nat.le_refl _)

theorem rounds_spec {lt : α → α → Bool} (hl : StrictWeak lt) (t l r m : Nat) (x : Nat → α)
    (hs : Nat) (h0 : 0 < hs) (b : Bool) (s : Mem α) (hb : Blocks lt hs l r x (at_ s b))
    (hm : m = r - l) :
    SegStable lt l r x (at_ (exec (rounds lt t l r (strides m hs) b) s) (flipAfter (strides m hs) b)) ∧
      (∀ y, y ≠ .left t → y ≠ .right t → (∀ o c, l ≤ c → c < r → y ≠ .arr o c) →
        exec (rounds lt t l r (strides m hs) b) s y = s y) ∧
      FootFrom (Own t l r) (Own t l r) (rounds lt t l r (strides m hs) b) s := by
  induction hd : m - hs using Nat.strongRecOn generalizing hs b s with
  | _ d ih =>
    rw [strides]
    split
    · rename_i h
      obtain ⟨r1, r2⟩ := round_spec hl t b hs l r h0 x s hb
      obtain ⟨i1, i2, i3⟩ := ih (m - hs * 2) (by omega) (hs * 2) (by omega) (!b) _ r1 rfl
      simp only [rounds, exec_append]
      refine ⟨i1, fun y n1 n2 n3 => ?_, ?_⟩
      · rw [i2 y n1 n2 n3, r2 y n1 n2 (n3 _)]
      · exact footFrom_append _ _ _ (round_foot lt t b hs l r h0 s) i3
    · rename_i h
      refine ⟨?_, fun _ _ _ _ => rfl, trivial⟩
      have := hb 0
      by_cases hlr : l ≤ r
      · rw [Nat.zero_mul, Nat.add_zero, show min (l + hs) r = r by omega] at this
        exact this
      · exact .empty (by omega)

/-- The local sort of `[l, r)` leaves the stable sort of that segment in array `flipped`. -/
theorem localSort_spec {lt : α → α → Bool} (hl : StrictWeak lt) (t l r : Nat) (s : Mem α) :
    SegStable lt l r (at_ s false)
      (at_ (exec (localSort lt t l r) s) (flipAfter (strides (r - l) 16) false)) ∧
      (∀ y, ¬ Own t l r y → exec (localSort lt t l r) s y = s y) ∧
      FootFrom (Own t l r) (Own t l r) (localSort lt t l r) s := by
  obtain ⟨a1, a2⟩ := insertionAll_spec hl t l r s
  obtain ⟨b1, b2, b3⟩ := rounds_spec hl t l r (r - l) (at_ s false) 16 (by decide) false _ a1 rfl
  unfold localSort
  rw [exec_append]
  refine ⟨b1, fun y hy => ?_, ?_⟩
  · have n1 : y ≠ .left t := fun e => hy (e ▸ rfl)
    have n2 : y ≠ .right t := fun e => hy (e ▸ rfl)
    have n3 : y ≠ .go t := fun e => hy (e ▸ rfl)
    have n4 : ∀ o c, l ≤ c → c < r → y ≠ .arr o c := fun o c h1 h2 e => hy (e ▸ ⟨h1, h2⟩)
    rw [b2 y n1 n2 n4, a2 y n3 (n4 _)]
  · exact footFrom_append _ _ _ (footFrom_list _ _ (insertionAll_foot lt t l r)) b3

/-! ### Parallel phases -/

open Verif.Scan in
theorem own_disjoint_chunk (n T : Nat) {t u : Nat} (h : t ≠ u) (l : Loc)
    (hw : Own u (st n T u) (ed n T u) l) : ¬ Own t (st n T t) (ed n T t) l := by
  intro hr
  cases l with
  | arr o i =>
    obtain ⟨w1, w2⟩ := hw
    obtain ⟨r1, r2⟩ := hr
    rcases Nat.lt_or_ge t u with h' | h'
    · have := ed_le_st n T h'; omega
    · have := ed_le_st n T (t := u) (u := t) (by omega); omega
  | left v => exact h (hr.symm.trans hw)
  | right v => exact h (hr.symm.trans hw)
  | go v => exact h (hr.symm.trans hw)

theorem mod_gap {t u m : Nat} (ht : t % m = 0) (hu : u % m = 0) (h : t < u) : t + m ≤ u := by
  have := Nat.dvd_sub (Nat.dvd_of_mod_eq_zero hu) (Nat.dvd_of_mod_eq_zero ht)
  have := Nat.le_of_dvd (by omega) this
  omega

/-- What thread `t` accesses in a cross phase. -/
def CrossOwn (n T hs t : Nat) : Loc → Prop :=
  if t % (hs * 2) = 0 then Own t (min (st n T t) n) (min (nwork n T * (t + hs * 2)) n) else Own t 0 0

theorem own_disjoint_cross (n T hs : Nat) {t u : Nat} (h : t ≠ u) (l : Loc)
    (hw : CrossOwn n T hs u l) : ¬ CrossOwn n T hs t l := by
  intro hr
  cases l with
  | arr o i =>
    unfold CrossOwn at hw hr
    split at hw
    · split at hr
      · rename_i h1 h2
        obtain ⟨w1, w2⟩ := hw
        obtain ⟨r1, r2⟩ := hr
        unfold st at *
        rcases Nat.lt_or_ge t u with h' | h'
        · have := Nat.mul_le_mul_left (nwork n T) (mod_gap h2 h1 h'); omega
        · have := Nat.mul_le_mul_left (nwork n T) (mod_gap h1 h2 (by omega)); omega
      · obtain ⟨r1, r2⟩ := hr; omega
    · obtain ⟨r1, r2⟩ := hw; omega
  | left v =>
    have e1 : v = u := by unfold CrossOwn at hw; split at hw <;> exact hw
    have e2 : v = t := by unfold CrossOwn at hr; split at hr <;> exact hr
    omega
  | right v =>
    have e1 : v = u := by unfold CrossOwn at hw; split at hw <;> exact hw
    have e2 : v = t := by unfold CrossOwn at hr; split at hr <;> exact hr
    omega
  | go v =>
    have e1 : v = u := by unfold CrossOwn at hw; split at hw <;> exact hw
    have e2 : v = t := by unfold CrossOwn at hr; split at hr <;> exact hr
    omega

/-- In a cross phase every thread that takes part merges as if it ran alone. -/
theorem crossPhase_alone (lt : α → α → Bool) (n T hs : Nat) (fl : Nat → Bool) (s : Mem α)
    (sched : List (Mem α → Mem α)) (h : Interleave T (crossPhase lt n T hs fl) sched) :
    (∀ t, t < T → t % (hs * 2) = 0 → ∀ o i, min (st n T t) n ≤ i →
      i < min (nwork n T * (t + hs * 2)) n → exec sched s (.arr o i) =
        exec (merge lt t (fl t) (st n T t) (min (nwork n T * (t + hs)) n)
          (min (nwork n T * (t + hs * 2)) n)) s (.arr o i)) ∧
    (∀ o i, n ≤ i → exec sched s (.arr o i) = s (.arr o i)) := by
  have hf : ∀ t, t < T → FootFrom (CrossOwn n T hs t) (CrossOwn n T hs t)
      (crossPhase lt n T hs fl t) s := by
    intro t _
    unfold crossPhase CrossOwn
    split
    · have m1 : nwork n T * t ≤ nwork n T * (t + hs) := Nat.mul_le_mul_left _ (by omega)
      have m2 : nwork n T * (t + hs) ≤ nwork n T * (t + hs * 2) := Nat.mul_le_mul_left _ (by omega)
      unfold st
      exact merge_foot lt t (fl t) _ _ _ _ _ (by omega) (by omega) (by omega) (by omega) s
    · trivial
  obtain ⟨r1, r2⟩ := exec_thread_from T (CrossOwn n T hs) (CrossOwn n T hs)
    (fun t u l _ _ hne hw => own_disjoint_cross n T hs hne l hw) _ s hf sched h
  constructor
  · intro t ht hm o i h1 h2
    rw [r1 t ht (.arr o i) (by unfold CrossOwn; rw [if_pos hm]; exact ⟨h1, h2⟩)]
    unfold crossPhase
    rw [if_pos hm]
  · intro o i hi
    apply r2
    intro t _ hw
    unfold CrossOwn at hw
    split at hw <;> (have := hw.2; omega)

theorem copyBack_run (n T : Nat) (hT : 0 < T) (sw : Bool) (s s' : Mem α)
    (run : Runs T [copyBack n T sw] s s') :
    (∀ i, i < n → at_ s' false i = at_ s sw i) ∧ (∀ i, n ≤ i → at_ s' false i = at_ s false i) := by
  cases run with
  | cons hi hr =>
    cases hr
    rename_i sched
    cases sw with
    | false =>
      have hf : ∀ t, t < T → ∀ a ∈ copyBack (α := α) n T false t, Foot (fun _ => True) (fun _ => False) a := by
        intro t _ a ha; simp [copyBack] at ha
      obtain ⟨_, r2⟩ := exec_thread T (fun _ _ => True) (fun _ _ => False)
        (fun _ _ _ _ _ _ h => h.elim) _ hf sched hi s
      exact ⟨fun i _ => by unfold at_; rw [r2 _ (fun _ _ h => h)],
        fun i _ => by unfold at_; rw [r2 _ (fun _ _ h => h)]⟩
    | true =>
      have hf : ∀ t, t < T → FootFrom (Own t (st n T t) (ed n T t)) (Own t (st n T t) (ed n T t))
          (copyBack (α := α) n T true t) s := by
        intro t _
        apply footFrom_list
        intro a ha s s' h
        simp only [copyBack, if_true, List.mem_map, List.mem_range'_1] at ha
        obtain ⟨k, hk, rfl⟩ := ha
        have o : ∀ b, Own t (st n T t) (ed n T t) (.arr b k) := fun b => ⟨by omega, by omega⟩
        have e : at_ s' true k = at_ s true k := by unfold at_; rw [h _ (o true)]
        dsimp only
        rw [e]
        exact ⟨frame_upd _ _ (o false) _, agree_upd h _ _⟩
      obtain ⟨r1, r2⟩ := exec_thread_from T (fun t => Own t (st n T t) (ed n T t))
        (fun t => Own t (st n T t) (ed n T t))
        (fun t u l _ _ hne hw => own_disjoint_chunk n T hne l hw) _ s hf sched hi
      have loop : ∀ a m, let s2 := exec ((List.range' a m).map (fun k (s : Mem α) =>
          upd s (.arr false k) (.elt (at_ s true k)))) s
          (∀ i, a ≤ i → i < a + m → at_ s2 false i = at_ s true i) ∧ (∀ i, at_ s2 true i = at_ s true i) := by
        intro a m
        induction m with
        | zero => exact ⟨fun i h1 h2 => by omega, fun _ => rfl⟩
        | succ m ih =>
          dsimp only at *
          obtain ⟨i1, i2⟩ := ih
          rw [List.range'_1_concat, List.map_append, exec_append]
          generalize exec ((List.range' a m).map (fun k (s : Mem α) =>
            upd s (.arr false k) (.elt (at_ s true k)))) s = s2 at *
          simp only [List.map_cons, List.map_nil, exec_cons, exec_nil]
          constructor
          · intro i h1 h2
            rw [at_upd]
            by_cases hi : i = a + m
            · rw [hi, upd_same, i2]
            · rw [upd_ne _ _ _ _ hi, i1 i h1 (by omega)]
          · intro i
            rw [show at_ (upd s2 (.arr false (a + m)) (.elt (at_ s2 true (a + m)))) true = at_ s2 true
              from at_upd_not s2 true _ _, i2]
      constructor
      · intro i hi'
        obtain ⟨t, ht, h1, h2⟩ := Verif.Scan.seg_exists n T i hT hi'
        have := r1 t ht (.arr false i) ⟨h1, h2⟩
        have e : at_ (exec sched s) false i = at_ (exec (copyBack n T true t) s) false i := by
          unfold at_; rw [this]
        rw [e]
        exact (loop (st n T t) (ed n T t - st n T t)).1 i h1 (by omega)
      · intro i hi'
        unfold at_
        rw [r2 (.arr false i) (fun t _ hw => by
          have := Verif.Scan.ed_le n T t
          have := hw.2
          omega)]

/-- The phases after the local sorts. -/
theorem crossPhases_run {lt : α → α → Bool} (hl : StrictWeak lt) (n T : Nat) (hT : 0 < T)
    (x : Nat → α) (hs : Nat) (h0 : 0 < hs) (fl : Nat → Bool) (s s' : Mem α)
    (hfl : ∀ t u, t < T → u < T → t % hs = 0 → u % hs = 0 → st n T t < n → st n T u < n → fl t = fl u)
    (hinv : ∀ t, t < T → t % hs = 0 → st n T t < n →
      SegStable lt (st n T t) (min (nwork n T * (t + hs)) n) x (at_ s (fl t)))
    (run : Runs T (crossPhases lt n T (strides T hs) fl) s s') :
    SegStable lt 0 n x (at_ s' false) ∧ (∀ i, n ≤ i → at_ s' false i = at_ s false i) := by
  have hnT := Verif.Scan.le_nwork_mul n T hT
  induction hd : T - hs using Nat.strongRecOn generalizing hs fl s with
  | _ d ih =>
    rw [strides] at run
    split at run
    · rename_i h
      cases run with
      | cons hi hr =>
        rename_i sched
        obtain ⟨c1, c2⟩ := crossPhase_alone lt n T hs fl s sched hi
        have half : ∀ t, t % (hs * 2) = 0 → t % hs = 0 := fun t ht =>
          Nat.mod_eq_zero_of_dvd (Nat.dvd_trans (Nat.dvd_mul_right hs 2) (Nat.dvd_of_mod_eq_zero ht))
        have g1 : ∀ t u, t < T → u < T → t % (hs * 2) = 0 → u % (hs * 2) = 0 → st n T t < n →
            st n T u < n → nextFlip hs fl t = nextFlip hs fl u := by
          intro t u ht hu mt mu nt nu
          unfold nextFlip
          rw [if_pos mt, if_pos mu, hfl t u ht hu (half t mt) (half u mu) nt nu]
        have g2 : ∀ t, t < T → t % (hs * 2) = 0 → st n T t < n →
            SegStable lt (st n T t) (min (nwork n T * (t + hs * 2)) n) x
              (at_ (exec sched s) (nextFlip hs fl t)) := by
          intro t ht mt nt
          have m1 : st n T t ≤ nwork n T * (t + hs) := Nat.mul_le_mul_left _ (by omega)
          have m2 : nwork n T * (t + hs) ≤ nwork n T * (t + hs * 2) :=
            Nat.mul_le_mul_left _ (by omega)
          have sa := hinv t ht (half t mt) nt
          have sb : SegStable lt (min (nwork n T * (t + hs)) n) (min (nwork n T * (t + hs * 2)) n) x
              (at_ s (fl t)) := by
            by_cases hh : nwork n T * (t + hs) < n
            · have hth : t + hs < T := by
                refine Nat.lt_of_not_le fun hc => ?_
                have := Nat.mul_le_mul_left (nwork n T) hc
                omega
              have mh : (t + hs) % hs = 0 := by rw [Nat.add_mod_right]; exact half t mt
              have := hinv (t + hs) hth mh hh
              rw [← hfl t (t + hs) ht hth (half t mt) mh nt hh] at this
              rw [Nat.min_eq_left (Nat.le_of_lt hh), show t + hs * 2 = t + hs + hs by omega]
              exact this
            · exact .empty (by omega)
          obtain ⟨j1, _⟩ := merge_spec hl t (fl t) s (by omega) (by omega) sa.sorted sb.sorted
          have := SegStable.merge sa sb (by omega) (by omega) j1
          refine this.congr (fun _ _ _ => rfl) ?_
          intro i h1 h2
          unfold nextFlip at_
          rw [if_pos mt, c1 t ht mt _ i (by omega) h2]
        obtain ⟨r1, r2⟩ := ih (T - hs * 2) (by omega) (hs * 2) (by omega) (nextFlip hs fl)
          (exec sched s) g1 g2 hr rfl
        exact ⟨r1, fun i hi' => by rw [r2 i hi']; unfold at_; rw [c2 _ i hi']⟩
    · rename_i h
      obtain ⟨r1, r2⟩ := copyBack_run n T hT (fl 0) s s' run
      refine ⟨?_, r2⟩
      by_cases hn : n = 0
      · exact .empty (by omega)
      · have h1 := hinv 0 hT (Nat.zero_mod _) (by rw [Verif.Scan.st_zero]; omega)
        have h2 : n ≤ nwork n T * (0 + hs) :=
          Nat.le_trans hnT (Nat.mul_le_mul_left _ (by omega))
        rw [Verif.Scan.st_zero, Nat.min_eq_right h2] at h1
        exact h1.congr (fun _ _ _ => rfl) (fun i _ hi => r1 i hi)

theorem localPhase_run {lt : α → α → Bool} (hl : StrictWeak lt) (n T : Nat)
    (s : Mem α) (sched : List (Mem α → Mem α))
    (h : Interleave T (fun t => localSort lt t (st n T t) (ed n T t)) sched) :
    (∀ t, t < T → SegStable lt (st n T t) (ed n T t) (at_ s false)
      (at_ (exec sched s) (localFlip n T t))) ∧
    (∀ o i, n ≤ i → exec sched s (.arr o i) = s (.arr o i)) := by
  obtain ⟨r1, r2⟩ := exec_thread_from T (fun t => Own t (st n T t) (ed n T t))
    (fun t => Own t (st n T t) (ed n T t))
    (fun t u l _ _ hne hw => own_disjoint_chunk n T hne l hw) _ s
    (fun t _ => (localSort_spec hl t (st n T t) (ed n T t) s).2.2) sched h
  constructor
  · intro t ht
    refine (localSort_spec hl t (st n T t) (ed n T t) s).1.congr (fun _ _ _ => rfl) ?_
    intro i h1 h2
    unfold at_
    rw [r1 t ht (.arr _ i) ⟨h1, h2⟩]
    rfl
  · intro o i hi
    refine r2 _ (fun t _ hw => ?_)
    have := Verif.Scan.ed_le n T t
    have := hw.2
    omega

theorem ed_min (n T t : Nat) : ed n T t = min (nwork n T * (t + 1)) n := by
  unfold ed st
  rw [Nat.mul_add, Nat.mul_one]
  split <;> omega

/-- The whole parallel merge sort, if the threads that have elements agree on `flipped`. -/
theorem mergeSort_run {lt : α → α → Bool} (hl : StrictWeak lt) (n T : Nat) (hT : 0 < T)
    (hfl : ∀ t u, t < T → u < T → st n T t < n → st n T u < n → localFlip n T t = localFlip n T u)
    (s s' : Mem α) (run : Runs T (mergeSort lt n T) s s') :
    SegStable lt 0 n (at_ s false) (at_ s' false) ∧ (∀ i, n ≤ i → at_ s' false i = at_ s false i) := by
  cases run with
  | cons hi hr =>
    obtain ⟨l1, l2⟩ := localPhase_run hl n T s _ hi
    obtain ⟨c1, c2⟩ := crossPhases_run hl n T hT (at_ s false) 1 (by decide) (localFlip n T) _ s'
      (fun t u ht hu _ _ nt nu => hfl t u ht hu nt nu)
      (fun t ht _ _ => by rw [← ed_min]; exact l1 t ht) hr
    exact ⟨c1, fun i hi' => by rw [c2 i hi']; unfold at_; rw [l2 _ i hi']⟩

end Verif.MergeSort
