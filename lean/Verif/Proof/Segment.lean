import Verif.Proof.Sort
import Verif.Proof.Phase
/-! Stable sorts of array segments `[a, b)`. -/
namespace Verif.Sort

variable {α : Type}

/-- Position `i` comes before position `j` in the stable sort of `x`. -/
def Before (lt : α → α → Bool) (x : Nat → α) (i j : Nat) : Prop :=
  lt (x i) (x j) = true ∨ (lt (x j) (x i) = false ∧ i < j)

/-- `y` on `[a, b)` is the stable sort of `x` on `[a, b)`. -/
def SegStable (lt : α → α → Bool) (a b : Nat) (x y : Nat → α) : Prop :=
  ∃ pos : Nat → Nat,
    (∀ i, a ≤ i → i < b → a ≤ pos i ∧ pos i < b) ∧
    (∀ k, a ≤ k → k < b → ∃ i, a ≤ i ∧ i < b ∧ pos i = k) ∧
    (∀ i, a ≤ i → i < b → y (pos i) = x i) ∧
    (∀ i j, a ≤ i → i < b → a ≤ j → j < b → (pos i < pos j ↔ Before lt x i j))

theorem StrictWeak.asymm {lt : α → α → Bool} (h : StrictWeak lt) {x y : α} (hxy : lt x y = true) :
    lt y x = false := by
  refine Bool.eq_false_iff.2 fun hc => ?_
  have := h.trans x y x hxy hc
  rw [h.irrefl] at this
  exact absurd this (by decide)

/-- "Not greater" is transitive. -/
theorem StrictWeak.le_trans {lt : α → α → Bool} (h : StrictWeak lt) {x y z : α}
    (h1 : lt y x = false) (h2 : lt z y = false) : lt z x = false := by
  refine Bool.eq_false_iff.2 fun hc => ?_
  rcases h.incomp z y x hc with h3 | h3
  · rw [h2] at h3; exact absurd h3 (by decide)
  · rw [h1] at h3; exact absurd h3 (by decide)

theorem Before.trans {lt : α → α → Bool} (h : StrictWeak lt) {x : Nat → α} {i j k : Nat}
    (h1 : Before lt x i j) (h2 : Before lt x j k) : Before lt x i k := by
  rcases h1 with h1 | ⟨h1, h1'⟩ <;> rcases h2 with h2 | ⟨h2, h2'⟩
  · exact .inl (h.trans _ _ _ h1 h2)
  · rcases h.incomp _ (x k) _ h1 with h3 | h3
    · exact .inl h3
    · rw [h2] at h3; exact absurd h3 (by decide)
  · rcases h.incomp _ (x i) _ h2 with h3 | h3
    · rw [h1] at h3; exact absurd h3 (by decide)
    · exact .inl h3
  · exact .inr ⟨h.le_trans h1 h2, by omega⟩

theorem Before.irrefl {lt : α → α → Bool} (h : StrictWeak lt) {x : Nat → α} {i : Nat} :
    ¬ Before lt x i i := by
  rintro (h1 | ⟨_, h1⟩)
  · rw [h.irrefl] at h1; exact absurd h1 (by decide)
  · omega

theorem Before.asymm {lt : α → α → Bool} (h : StrictWeak lt) {x : Nat → α} {i j : Nat}
    (h1 : Before lt x i j) : ¬ Before lt x j i := fun h2 => Before.irrefl h (h1.trans h h2)

theorem Before.of_le {lt : α → α → Bool} {x : Nat → α} {i j : Nat} (h : lt (x j) (x i) = false)
    (hij : i < j) : Before lt x i j := .inr ⟨h, hij⟩

theorem Before.congr {lt : α → α → Bool} {x x' : Nat → α} {i j : Nat} (hi : x i = x' i)
    (hj : x j = x' j) : Before lt x i j ↔ Before lt x' i j := by
  unfold Before; rw [hi, hj]

theorem SegStable.congr {lt : α → α → Bool} {a b : Nat} {x x' y y' : Nat → α}
    (h : SegStable lt a b x y) (hx : ∀ i, a ≤ i → i < b → x' i = x i)
    (hy : ∀ i, a ≤ i → i < b → y' i = y i) : SegStable lt a b x' y' := by
  obtain ⟨p, p1, p2, p3, p4⟩ := h
  refine ⟨p, p1, p2, fun i h1 h2 => ?_, fun i j h1 h2 h3 h4 => ?_⟩
  · rw [hy _ (p1 i h1 h2).1 (p1 i h1 h2).2, hx i h1 h2, p3 i h1 h2]
  · rw [p4 i j h1 h2 h3 h4]; exact Before.congr (hx i h1 h2).symm (hx j h3 h4).symm

theorem SegStable.sorted {lt : α → α → Bool} {a b : Nat} {x y : Nat → α}
    (h : SegStable lt a b x y) : ∀ i j, a ≤ i → i < j → j < b → lt (y j) (y i) = false := by
  obtain ⟨p, p1, p2, p3, p4⟩ := h
  intro i j hi hij hj
  obtain ⟨u, u1, u2, rfl⟩ := p2 i hi (by omega)
  obtain ⟨v, v1, v2, rfl⟩ := p2 j (by omega) hj
  rw [p3 u u1 u2, p3 v v1 v2]
  refine Bool.eq_false_iff.2 fun hc => ?_
  have := (p4 v u v1 v2 u1 u2).2 (.inl hc)
  omega

/-- A segment in order is its own stable sort. -/
theorem SegStable.self {lt : α → α → Bool} (hl : StrictWeak lt) {a b : Nat} {x : Nat → α}
    (h : ∀ i j, a ≤ i → i < j → j < b → lt (x j) (x i) = false) : SegStable lt a b x x := by
  refine ⟨id, fun i h1 h2 => ⟨h1, h2⟩, fun k h1 h2 => ⟨k, h1, h2, rfl⟩, fun _ _ _ => rfl, ?_⟩
  intro i j h1 h2 h3 h4
  constructor
  · exact fun h5 => Before.of_le (h i j h1 h5 h4) h5
  · intro h5
    show i < j
    rcases Nat.lt_trichotomy i j with h6 | h6 | h6
    · exact h6
    · subst h6; exact absurd h5 (Before.irrefl hl)
    · exact absurd (Before.of_le (h j i h3 h6 h2) h6) (h5.asymm hl)

theorem SegStable.short {lt : α → α → Bool} (hl : StrictWeak lt) {a b : Nat} {x : Nat → α}
    (h : b ≤ a + 1) : SegStable lt a b x x :=
  .self hl fun i j h1 h2 h3 => by omega

theorem SegStable.empty {lt : α → α → Bool} {a b : Nat} {x y : Nat → α}
    (h : b ≤ a) : SegStable lt a b x y :=
  ⟨id, fun i h1 h2 => by omega, fun i h1 h2 => by omega, fun i h1 h2 => by omega,
    fun i j h1 h2 => by omega⟩

/-- Sorting two halves and then the whole is sorting the whole. -/
theorem SegStable.merge {lt : α → α → Bool} {a m b : Nat} {x y z : Nat → α}
    (h1 : SegStable lt a m x y) (h2 : SegStable lt m b x y) (ham : a ≤ m) (hmb : m ≤ b)
    (h3 : SegStable lt a b y z) : SegStable lt a b x z := by
  obtain ⟨p, p1, p2, p3, p4⟩ := h1
  obtain ⟨q, q1, q2, q3, q4⟩ := h2
  obtain ⟨r, r1, r2, r3, r4⟩ := h3
  have f1 : ∀ i, a ≤ i → i < b → a ≤ (if i < m then p i else q i) ∧
      (if i < m then p i else q i) < b ∧ y (if i < m then p i else q i) = x i := by
    intro i hi hb
    split
    · have := p1 i hi ‹_›; exact ⟨this.1, by omega, p3 i hi ‹_›⟩
    · have := q1 i (by omega) hb; exact ⟨by omega, this.2, q3 i (by omega) hb⟩
  refine ⟨fun i => r (if i < m then p i else q i), fun i hi hb => ?_, fun k hk hb => ?_,
    fun i hi hb => ?_, fun i j hi hib hj hjb => ?_⟩
  · exact r1 _ (f1 i hi hb).1 (f1 i hi hb).2.1
  · obtain ⟨c, c1, c2, rfl⟩ := r2 k hk hb
    by_cases hc : c < m
    · obtain ⟨i, i1, i2, rfl⟩ := p2 c c1 hc
      exact ⟨i, i1, by omega, by dsimp only; rw [if_pos i2]⟩
    · obtain ⟨i, i1, i2, rfl⟩ := q2 c (by omega) c2
      exact ⟨i, by omega, i2, by dsimp only; rw [if_neg (by omega)]⟩
  · dsimp only
    rw [r3 _ (f1 i hi hb).1 (f1 i hi hb).2.1, (f1 i hi hb).2.2]
  · dsimp only
    rw [r4 _ _ (f1 i hi hib).1 (f1 i hi hib).2.1 (f1 j hj hjb).1 (f1 j hj hjb).2.1]
    have hp : ((if i < m then p i else q i) < (if j < m then p j else q j) ↔ Before lt x i j) ∨
        ((if i < m then p i else q i) < (if j < m then p j else q j) ↔ i < j) := by
      by_cases him : i < m <;> by_cases hjm : j < m
      · rw [if_pos him, if_pos hjm]; exact .inl (p4 i j hi him hj hjm)
      · rw [if_pos him, if_neg hjm]
        have := p1 i hi him
        have := q1 j (by omega) hjb
        right; omega
      · rw [if_neg him, if_pos hjm]
        have := p1 j hj hjm
        have := q1 i (by omega) hib
        right; omega
      · rw [if_neg him, if_neg hjm]; exact .inl (q4 i j (by omega) hib (by omega) hjb)
    unfold Before
    rw [(f1 i hi hib).2.2, (f1 j hj hjb).2.2]
    unfold Before at hp
    rcases hp with hp | hp <;> rw [hp]
    constructor
    · rintro (h | ⟨_, h⟩)
      · exact .inl h
      · exact h
    · rintro (h | h)
      · exact .inl h
      · exact .inr ⟨h.1, .inr h⟩

/-! ### Building a stable sort element by element -/

/-- The elements at positions `S` of `x` have been placed at `[a, k)` of `y`. -/
structure Place (lt : α → α → Bool) (a b k : Nat) (S : Nat → Prop) (pos : Nat → Nat)
    (x y : Nat → α) : Prop where
  mem : ∀ i, S i → a ≤ i ∧ i < b
  rng : ∀ i, S i → a ≤ pos i ∧ pos i < k
  sur : ∀ c, a ≤ c → c < k → ∃ i, S i ∧ pos i = c
  val : ∀ i, S i → y (pos i) = x i
  ord : ∀ i j, S i → S j → (pos i < pos j ↔ Before lt x i j)
  rest : ∀ i j, S i → ¬ S j → a ≤ j → j < b → Before lt x i j

open Verif.Phase in
theorem Place.step {lt : α → α → Bool} (hl : StrictWeak lt) {a b k : Nat} {S : Nat → Prop}
    {pos : Nat → Nat} {x y : Nat → α} (h : Place lt a b k S pos x y) (e : Nat) (he : ¬ S e)
    (hak : a ≤ k)
    (hae : a ≤ e) (heb : e < b) (hmin : ∀ j, j ≠ e → ¬ S j → a ≤ j → j < b → Before lt x e j) :
    Place lt a b (k + 1) (fun i => S i ∨ i = e) (upd pos e k) x (upd y k (x e)) := by
  have hne : ∀ i, S i → i ≠ e := fun i hi hie => he (hie ▸ hi)
  refine ⟨?_, ?_, ?_, ?_, ?_, ?_⟩
  · rintro i (hi | rfl)
    · exact h.mem i hi
    · exact ⟨hae, heb⟩
  · rintro i (hi | rfl)
    · rw [upd_ne _ _ _ _ (hne i hi)]; have := h.rng i hi; omega
    · rw [upd_same]; omega
  · intro c h1 h2
    by_cases hc : c = k
    · exact ⟨e, .inr rfl, by rw [upd_same, hc]⟩
    · obtain ⟨i, hi, hp⟩ := h.sur c h1 (by omega)
      exact ⟨i, .inl hi, by rw [upd_ne _ _ _ _ (hne i hi), hp]⟩
  · rintro i (hi | rfl)
    · have := h.rng i hi
      rw [upd_ne _ _ _ _ (hne i hi), upd_ne _ _ _ _ (by omega), h.val i hi]
    · rw [upd_same, upd_same]
  · rintro i j (hi | rfl) (hj | rfl)
    · rw [upd_ne _ _ _ _ (hne i hi), upd_ne _ _ _ _ (hne j hj), h.ord i j hi hj]
    · rw [upd_ne _ _ _ _ (hne i hi), upd_same]
      have := h.rng i hi
      exact ⟨fun _ => h.rest i j hi he hae heb, fun _ => by omega⟩
    · rw [upd_ne _ _ _ _ (hne j hj), upd_same]
      have := h.rng j hj
      exact ⟨fun _ => by omega, fun hb => absurd (h.rest j i hj he hae heb) (hb.asymm hl)⟩
    · rw [upd_same]
      exact ⟨fun h => by omega, fun h => absurd h (Before.irrefl hl)⟩
  · rintro i j (hi | rfl) hj h1 h2
    · exact h.rest i j hi (fun hs => hj (.inl hs)) h1 h2
    · exact hmin j (fun e => hj (.inr e)) (fun hs => hj (.inl hs)) h1 h2

theorem Place.congr {lt : α → α → Bool} {a b k : Nat} {S S' : Nat → Prop}
    {pos : Nat → Nat} {x y : Nat → α} (h : Place lt a b k S pos x y) (hs : ∀ i, S i ↔ S' i) :
    Place lt a b k S' pos x y := by
  have : S = S' := funext fun i => propext (hs i)
  rw [← this]; exact h

theorem Place.init (lt : α → α → Bool) (a b : Nat) (x y : Nat → α) :
    Place lt a b a (fun _ => False) id x y :=
  ⟨fun _ h => h.elim, fun _ h => h.elim, fun c h1 h2 => by omega, fun _ h => h.elim,
    fun _ _ h => h.elim, fun _ _ h => h.elim⟩

theorem Place.full {lt : α → α → Bool} {a b : Nat} {S : Nat → Prop}
    {pos : Nat → Nat} {x y : Nat → α} (h : Place lt a b b S pos x y)
    (hs : ∀ i, a ≤ i → i < b → S i) : SegStable lt a b x y :=
  ⟨pos, fun i h1 h2 => h.rng i (hs i h1 h2),
    fun k h1 h2 => by obtain ⟨i, hi, e⟩ := h.sur k h1 h2; exact ⟨i, (h.mem i hi).1, (h.mem i hi).2, e⟩,
    fun i h1 h2 => h.val i (hs i h1 h2), fun i j h1 h2 h3 h4 => h.ord i j (hs i h1 h2) (hs j h3 h4)⟩

/-- Insertion of element `i` at position `p` of the sorted segment `[a, i)`. -/
theorem insert_stable {lt : α → α → Bool} (hl : StrictWeak lt) {a i p : Nat} {x y : Nat → α}
    (hx : ∀ c d, a ≤ c → c < d → d < i → lt (x d) (x c) = false) (hap : a ≤ p) (hpi : p ≤ i)
    (h1 : ∀ c, a ≤ c → c < p → y c = x c) (h2 : y p = x i)
    (h3 : ∀ c, p ≤ c → c < i → y (c + 1) = x c)
    (h4 : ∀ c, p ≤ c → c < i → lt (x i) (x c) = true)
    (h5 : p = a ∨ lt (x i) (x (p - 1)) = false) : SegStable lt a (i + 1) x y := by
  have h6 : ∀ c, a ≤ c → c < p → lt (x i) (x c) = false := by
    intro c hc hcp
    rcases h5 with h5 | h5
    · omega
    · by_cases hcp' : c = p - 1
      · rw [hcp']; exact h5
      · exact hl.le_trans (hx c (p - 1) hc (by omega) (by omega)) h5
  have bef : ∀ c, a ≤ c → c < i → (Before lt x c i ↔ c < p) := by
    intro c hc hci
    constructor
    · rintro hb
      refine Nat.lt_of_not_le fun hcp => ?_
      exact hb.asymm hl (.inl (h4 c (by omega) hci))
    · intro hcp; exact .inr ⟨h6 c hc hcp, hci⟩
  have bef' : ∀ c, a ≤ c → c < i → (Before lt x i c ↔ p ≤ c) := by
    intro c hc hci
    constructor
    · intro hb
      refine Nat.le_of_not_lt fun hcp => ?_
      exact hb.asymm hl ((bef c hc hci).2 (by omega))
    · intro hcp; exact .inl (h4 c hcp hci)
  obtain ⟨q, q1, q2, q3, q4⟩ := SegStable.self hl hx
  have befs : ∀ c d, a ≤ c → c < i → a ≤ d → d < i → (Before lt x c d ↔ c < d) := by
    intro c d c1 c2 d1 d2
    constructor
    · intro hb
      rcases Nat.lt_trichotomy c d with h | h | h
      · exact h
      · subst h; exact absurd hb (Before.irrefl hl)
      · exact absurd (Before.of_le (hx d c d1 h c2) h) (hb.asymm hl)
    · exact fun h => Before.of_le (hx c d c1 h d2) h
  refine ⟨fun c => if c = i then p else if c < p then c else c + 1, ?_, ?_, ?_, ?_⟩
  · intro c c1 c2
    dsimp only
    split
    · omega
    · split <;> omega
  · intro k k1 k2
    dsimp only
    by_cases hk : k < p
    · exact ⟨k, k1, k2, by rw [if_neg (by omega), if_pos hk]⟩
    · by_cases hk' : k = p
      · exact ⟨i, by omega, by omega, by rw [if_pos rfl, hk']⟩
      · exact ⟨k - 1, by omega, by omega, by rw [if_neg (by omega), if_neg (by omega)]; omega⟩
  · intro c c1 c2
    dsimp only
    split
    · rename_i e; rw [h2, e]
    · split
      · exact h1 c c1 ‹_›
      · exact h3 c (by omega) (by omega)
  · intro c d c1 c2 d1 d2
    dsimp only
    by_cases hc : c = i <;> by_cases hd : d = i
    · subst hc; subst hd
      simp [Before.irrefl hl]
    · subst hc
      rw [if_pos rfl, if_neg hd, bef' d d1 (by omega)]
      split <;> omega
    · subst hd
      rw [if_pos rfl, if_neg hc, bef c c1 (by omega)]
      split <;> omega
    · rw [if_neg hc, if_neg hd, befs c d c1 (by omega) d1 (by omega)]
      split <;> split <;> omega

theorem SegStable.toStable {lt : α → α → Bool} {n : Nat} {x y : Nat → α}
    (h : SegStable lt 0 n x y) : StableSort n (fun a b => lt a b = true) x y := by
  obtain ⟨p, p1, p2, p3, p4⟩ := h
  refine ⟨p, fun i hi => (p1 i (by omega) hi).2, fun k hk => ?_, fun i hi => p3 i (by omega) hi,
    fun i j hi hj => ?_⟩
  · obtain ⟨i, _, hi, e⟩ := p2 k (by omega) hk; exact ⟨i, hi, e⟩
  · rw [p4 i j (by omega) hi (by omega) hj, Before, Bool.not_eq_true]

end Verif.Sort
