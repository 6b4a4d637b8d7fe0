import Verif.Proof.HashTable
import Mathlib.Algebra.Order.BigOperators.Group.Finset
import Mathlib.Tactic.Push
import Mathlib.Tactic.ByContra

/-! Helper lemmas for C38: phases of insertions and the search. -/
namespace Verif.HashTable

variable {dim : Nat} {arg : Nat → Key dim × Option Nat} {hash : Key dim → Int} {n : Nat}
variable {s0 s s' : St dim} {own own' : Own dim} {t : Nat}

/-! ## Numbers -/

def Pc.numbered : Pc dim → Nat → Prop
  | .index _ i, x => i = x
  | .active i, x => i = x
  | .done (some i), x => i = x
  | _, _ => False

structure Fresh (arg : Nat → Key dim × Option Nat) (s0 : St dim) (own : Own dim) (num : Nat → Nat) (s : St dim) : Prop where
  nums : ∀ i, i < s.cnt → ∃ k o, own (num i) = some (k, o) ∧ (o = none → s0.idx (num i) = some i ∧ s.active i = k) ∧
    ∀ t, o = some t → (s.pc t).numbered i ∧ (s.pc t = .done (some i) → s.active i = k)
  given : ∀ t i, (s.pc t).numbered i → i < s.cnt ∧ s0.cnt ≤ i ∧ own (num i) = some ((arg t).1, some t)

theorem Fresh.inj {num : Nat → Nat} (hf : Fresh arg s0 own num s) {i j : Nat} (hi : i < s.cnt) (hj : j < s.cnt) (h : num i = num j) : i = j := by
  obtain ⟨k, o, h1, h2, h3⟩ := hf.nums i hi
  obtain ⟨k', o', h1', h2', h3'⟩ := hf.nums j hj
  rw [h, h1'] at h1
  obtain ⟨rfl, rfl⟩ := Prod.mk.inj (Option.some.inj h1)
  cases o' with
  | none =>
    have a := (h2 rfl).1
    have b := (h2' rfl).1
    rw [h, b] at a
    exact (Option.some.inj a).symm
  | some t =>
    have a := (h3 t rfl).1
    have b := (h3' t rfl).1
    revert a b
    cases s.pc t with
    | index x y => intro a b; exact a.symm.trans b
    | active x => intro a b; exact a.symm.trans b
    | done r =>
      cases r with
      | none => intro a; exact a.elim
      | some x => intro a b; exact a.symm.trans b
    | _ => intro a; exact a.elim

theorem Fresh.cnt_le {num : Nat → Nat} (hf : Fresh arg s0 own num s) (hc : Core arg hash n s0 own s) : s.cnt ≤ n := by
  have h : (Finset.range s.cnt).card ≤ (Finset.range n).card := by
    refine Finset.card_le_card_of_injOn num ?_ ?_
    · intro i hi
      obtain ⟨k, o, h1, -⟩ := hf.nums i (by simpa using hi)
      simpa using hc.bound _ _ h1
    · intro i hi j hj h
      exact hf.inj (by simpa using hi) (by simpa using hj) h
  simpa using h

/-- Only the place of `t` changes, and it has no number. -/
theorem Fresh.move {num : Nat → Nat} (hf : Fresh arg s0 own num s) (hle : Le own own') {p : Pc dim} (h1 : s'.pc = upd s.pc t p)
    (h2 : s'.cnt = s.cnt) (h3 : s'.active = s.active) (h4 : ∀ i, ¬ (s.pc t).numbered i) (h5 : ∀ i, ¬ p.numbered i) :
    Fresh arg s0 own' num s' := by
  constructor
  · intro i hi
    rw [h2] at hi
    obtain ⟨k, o, a1, a2, a3⟩ := hf.nums i hi
    refine ⟨k, o, hle _ _ a1, by rw [h3]; exact a2, fun q hq => ?_⟩
    have hne : q ≠ t := by rintro rfl; exact h4 i (a3 q hq).1
    rw [h1, upd_ne _ _ hne, h3]
    exact a3 q hq
  · intro q i hq
    rw [h1] at hq
    by_cases e : q = t
    · rw [e, upd_same] at hq; exact absurd hq (h5 i)
    · rw [upd_ne _ _ e] at hq
      obtain ⟨b1, b2, b3⟩ := hf.given q i hq
      exact ⟨by rw [h2]; exact b1, b2, hle _ _ b3⟩

theorem Fresh.step {num : Nat → Nat} (hf : Fresh arg s0 own num s) (hc : Core arg hash n s0 own s) (hle : Le own own')
    (ha : (arg t).2 = none) (hcnt : s0.cnt ≤ s.cnt) (h : HashTable.step arg hash n s t = some s') :
    (∃ num', Fresh arg s0 own' num' s') ∧ s0.cnt ≤ s'.cnt := by
  unfold HashTable.step at h
  simp only at h
  cases e : s.pc t with
  | start =>
    simp only [e] at h
    split at h
    · cases h
    · cases h
      exact ⟨⟨num, hf.move hle rfl rfl rfl (by rw [e]; simp [Pc.numbered]) (by simp [Pc.numbered])⟩, hcnt⟩
  | lock x =>
    simp only [e] at h
    split at h
    · cases h
    · split at h
      · cases h
        exact ⟨⟨num, hf.move hle (t := t) (p := s.pc t) (by funext q; unfold upd; split <;> simp_all) rfl rfl (by rw [e]; simp [Pc.numbered]) (by rw [e]; simp [Pc.numbered])⟩, hcnt⟩
      · cases h
        exact ⟨⟨num, hf.move hle rfl rfl rfl (by rw [e]; simp [Pc.numbered]) (by simp [Pc.numbered])⟩, hcnt⟩
  | read x =>
    simp only [e] at h
    split at h
    · cases h
    · split at h
      · cases h
        exact ⟨⟨num, hf.move hle rfl rfl rfl (by rw [e]; simp [Pc.numbered]) (by simp [Pc.numbered])⟩, hcnt⟩
      · cases h
        exact ⟨⟨num, hf.move hle rfl rfl rfl (by rw [e]; simp [Pc.numbered]) (by simp [Pc.numbered])⟩, hcnt⟩
  | write x d =>
    simp only [e] at h
    split at h
    · cases h
    · split at h
      · cases h
        exact ⟨⟨num, hf.move hle rfl rfl rfl (by rw [e]; simp [Pc.numbered]) (by simp [Pc.numbered])⟩, hcnt⟩
      · cases h
        exact ⟨⟨num, hf.move hle rfl rfl rfl (by rw [e]; simp [Pc.numbered]) (by simp [Pc.numbered])⟩, hcnt⟩
  | unlock x old =>
    simp only [e, ha] at h
    split at h
    · cases h
    · cases h
      refine ⟨⟨num, hf.move hle rfl rfl rfl (by rw [e]; simp [Pc.numbered]) ?_⟩, hcnt⟩
      intro i
      split
      · simp [Pc.numbered]
      · split <;> simp [Pc.numbered]
  | add x =>
    simp only [e] at h
    cases h
    have htask := hc.task t
    rw [e] at htask
    obtain ⟨htask, -⟩ := htask
    refine ⟨⟨upd num s.cnt x, ?_, ?_⟩, by show s0.cnt ≤ s.cnt + 1; omega⟩
    · intro i hi
      by_cases ei : i = s.cnt
      · subst ei
        rw [upd_same]
        refine ⟨(arg t).1, some t, hle _ _ htask, fun h => by (cases h), fun q hq => ?_⟩
        cases hq
        show (upd s.pc t _ t).numbered s.cnt ∧ (upd s.pc t _ t = _ → _)
        rw [upd_same]
        exact ⟨rfl, fun h => by (cases h)⟩
      · rw [upd_ne _ _ ei]
        have hi' : i < s.cnt := by
          have : i < s.cnt + 1 := hi
          omega
        obtain ⟨k, o, a1, a2, a3⟩ := hf.nums i hi'
        refine ⟨k, o, hle _ _ a1, a2, fun q hq => ?_⟩
        have hne : q ≠ t := by
          rintro rfl
          have := (a3 q hq).1
          rw [e] at this; exact this
        show (upd s.pc t _ q).numbered i ∧ (upd s.pc t _ q = _ → _)
        rw [upd_ne _ _ hne]
        exact a3 q hq
    · intro q i hq
      have hq : (upd s.pc t (.index x s.cnt) q).numbered i := hq
      show i < s.cnt + 1 ∧ _
      by_cases eq : q = t
      · rw [eq, upd_same] at hq
        have hq : s.cnt = i := hq
        subst hq
        rw [upd_same, eq]
        exact ⟨by omega, hcnt, hle _ _ htask⟩
      · rw [upd_ne _ _ eq] at hq
        obtain ⟨b1, b2, b3⟩ := hf.given q i hq
        rw [upd_ne _ _ (by omega)]
        exact ⟨by omega, b2, hle _ _ b3⟩
  | index x y =>
    simp only [e, ha] at h
    split at h
    · cases h
    · cases h
      refine ⟨⟨num, ?_, ?_⟩, hcnt⟩
      · intro i hi
        obtain ⟨k, o, a1, a2, a3⟩ := hf.nums i hi
        refine ⟨k, o, hle _ _ a1, a2, fun q hq => ?_⟩
        show (upd s.pc t _ q).numbered i ∧ (upd s.pc t _ q = _ → _)
        by_cases eq : q = t
        · rw [eq, upd_same]
          have := (a3 q hq).1
          rw [eq, e] at this
          exact ⟨this, fun h => by (cases h)⟩
        · rw [upd_ne _ _ eq]; exact a3 q hq
      · intro q i hq
        have hq : (upd s.pc t (.active y) q).numbered i := hq
        show i < s.cnt ∧ _
        have hq' : (s.pc q).numbered i := by
          by_cases eq : q = t
          · rw [eq, upd_same] at hq; rw [eq, e]; exact hq
          · rw [upd_ne _ _ eq] at hq; exact hq
        obtain ⟨b1, b2, b3⟩ := hf.given q i hq'
        exact ⟨b1, b2, hle _ _ b3⟩
  | active y =>
    simp only [e] at h
    split at h
    · cases h
    · cases h
      have hy := (hf.given t y (by rw [e]; rfl))
      refine ⟨⟨num, ?_, ?_⟩, hcnt⟩
      · intro i hi
        obtain ⟨k, o, a1, a2, a3⟩ := hf.nums i hi
        refine ⟨k, o, hle _ _ a1, fun ho => ⟨(a2 ho).1, ?_⟩, fun q hq => ?_⟩
        · show upd s.active y _ i = k
          rw [upd_ne]
          · exact (a2 ho).2
          · rintro rfl
            have h3 := hy.2.2
            rw [a1, ho] at h3
            cases h3
        · show (upd s.pc t _ q).numbered i ∧ (upd s.pc t _ q = _ → upd s.active y _ i = k)
          by_cases eq : q = t
          · rw [eq, upd_same]
            have hn := (a3 q hq).1
            rw [eq, e] at hn
            have hn : y = i := hn
            subst hn
            refine ⟨rfl, fun _ => ?_⟩
            rw [upd_same]
            have h3 := hy.2.2
            rw [a1] at h3
            exact (Prod.mk.inj (Option.some.inj h3)).1.symm
          · rw [upd_ne _ _ eq]
            refine ⟨(a3 q hq).1, fun hd => ?_⟩
            rw [upd_ne]
            · exact (a3 q hq).2 hd
            · rintro rfl
              have h3 := hy.2.2
              rw [a1, hq] at h3
              exact eq (Option.some.inj (Prod.mk.inj (Option.some.inj h3)).2)
      · intro q i hq
        have hq : (upd s.pc t (.done (some y)) q).numbered i := hq
        show i < s.cnt ∧ _
        have hq' : (s.pc q).numbered i := by
          by_cases eq : q = t
          · rw [eq, upd_same] at hq; rw [eq, e]; exact hq
          · rw [upd_ne _ _ eq] at hq; exact hq
        obtain ⟨b1, b2, b3⟩ := hf.given q i hq'
        exact ⟨b1, b2, hle _ _ b3⟩
  | done r =>
    simp only [e] at h
    cases h
    refine ⟨⟨num, ?_, ?_⟩, hcnt⟩
    · intro i hi
      obtain ⟨k, o, a1, a2, a3⟩ := hf.nums i hi
      exact ⟨k, o, hle _ _ a1, a2, a3⟩
    · intro q i hq
      obtain ⟨b1, b2, b3⟩ := hf.given q i hq
      exact ⟨b1, b2, hle _ _ b3⟩

/-! ## Tables between the phases -/

/-- Every key is reachable along its probe sequence, and the slots are unlocked. -/
structure Chains (hash : Key dim → Int) (n : Nat) (s : St dim) : Prop where
  lock : ∀ h < n, s.lock h = false
  slot : ∀ h < n, s.keys h = sent ↔ s.idx h = none
  path : ∀ h < n, s.keys h ≠ sent → ∃ j, path hash n (s.keys h) j = h ∧
    ∀ i < j, s.keys (path hash n (s.keys h) i) ≠ sent ∧ s.keys (path hash n (s.keys h) i) ≠ s.keys h

/-- The indices of the slots are the numbers below the count, and `_activeKeys` lists the keys. -/
structure Dense (n : Nat) (s : St dim) : Prop where
  ex : ∀ i < s.cnt, ∃ h < n, s.idx h = some i
  lt : ∀ h < n, ∀ i, s.idx h = some i → i < s.cnt ∧ s.active i = s.keys h
  inj : ∀ h < n, ∀ h' < n, ∀ i, s.idx h = some i → s.idx h' = some i → h = h'

def own0 (n : Nat) (s : St dim) : Own dim := fun h => if h < n ∧ s.keys h ≠ sent then some (s.keys h, none) else none

theorem own0_some {h : Nat} {k : Key dim} {o : Option Nat} : own0 n s h = some (k, o) ↔ h < n ∧ s.keys h ≠ sent ∧ k = s.keys h ∧ o = none := by
  unfold own0
  split
  · next e => simp [e, eq_comm]
  · next e => simp; tauto

theorem Chains.core (hn : 0 < n) (hc : Chains hash n s0) (hp : s0.pc = fun _ => .start) : Core arg hash n s0 (own0 n s0) s0 := by
  constructor
  · intro h ⟨k, o⟩ hx
    exact (own0_some.1 hx).1
  · intro h hh hx
    have : s0.keys h = sent := by
      by_contra ne
      have := own0_some (n := n).2 ⟨hh, ne, rfl, rfl⟩
      rw [hx] at this; cases this
    exact ⟨this, (hc.slot h hh).1 this⟩
  · intro h k hx
    obtain ⟨_, _, rfl, _⟩ := own0_some.1 hx
    exact ⟨rfl, rfl, rfl⟩
  · intro h k t hx
    obtain ⟨_, _, _, e⟩ := own0_some.1 hx
    cases e
  · intro h h' k k' t hx
    obtain ⟨_, _, _, e⟩ := own0_some.1 hx
    cases e
  · intro h k o hx
    obtain ⟨_, a, rfl, _⟩ := own0_some.1 hx
    exact a
  · intro h k o hx
    obtain ⟨a, b, rfl, _⟩ := own0_some.1 hx
    obtain ⟨j, c, d⟩ := hc.path h a b
    refine ⟨j, c, fun i hi => ⟨_, none, own0_some.2 ⟨path_lt hn _ _, (d i hi).1, rfl, rfl⟩, (d i hi).2⟩⟩
  · intro t
    rw [hp]; trivial
  · intro h hh ne
    exact own0_some.2 ⟨hh, ne, rfl, rfl⟩

theorem Chains.locks (hc : Chains hash n s0) (hp : s0.pc = fun _ => .start) : Locks n s0 := by
  refine ⟨?_, ?_, ?_⟩
  · intro t h hx; rw [hp] at hx; exact hx.elim
  · intro t t' h hx; rw [hp] at hx; exact hx.elim
  · intro h hh hx; rw [hc.lock h hh] at hx; cases hx

theorem Dense.fresh (hd : Dense n s0) (hc : Chains hash n s0) (hp : s0.pc = fun _ => .start) : ∃ num, Fresh arg s0 (own0 n s0) num s0 := by
  classical
  refine ⟨fun i => if h : i < s0.cnt then (hd.ex i h).choose else 0, ?_, ?_⟩
  · intro i hi
    rw [dif_pos hi]
    obtain ⟨h1, h2⟩ := (hd.ex i hi).choose_spec
    refine ⟨_, none, own0_some.2 ⟨h1, ?_, rfl, rfl⟩, fun _ => ⟨h2, (hd.lt _ h1 i h2).2⟩, fun t ht => by (cases ht)⟩
    intro e
    rw [(hc.slot _ h1).1 e] at h2
    cases h2
  · intro t i hx
    rw [hp] at hx; exact hx.elim

/-- No insertion is under way. -/
def Quiet (s : St dim) : Prop := ∀ t, s.pc t = .start ∨ ∃ r, s.pc t = .done r

theorem Quiet.owner (hq : Quiet s) (hc : Core arg hash n s0 own s) {h : Nat} {k : Key dim} (ho : own h = some (k, some t)) :
    ∃ i, s.pc t = .done (some i) ∧ k = (arg t).1 ∧ s.keys h = k ∧ s.idx h = some i := by
  obtain ⟨m1, m2, m3, m4, -⟩ := hc.mine h k t ho
  rcases hq t with e | ⟨r, e⟩
  · rw [e] at m2; exact m2.elim
  · rw [e] at m2 m3 m4
    cases r with
    | none => exact m2.elim
    | some i => exact ⟨i, e, m1, m3, m4⟩

theorem Quiet.key (hq : Quiet s) (hc : Core arg hash n s0 own s) {h : Nat} {k : Key dim} {o : Option Nat} (ho : own h = some (k, o)) :
    s.keys h = k := by
  cases o with
  | none => exact (hc.old h k ho).1
  | some t => obtain ⟨_, _, _, e, _⟩ := hq.owner hc ho; exact e

theorem Quiet.owned (hc : Core arg hash n s0 own s) {h : Nat} (hh : h < n) (hk : s.keys h ≠ sent) : ∃ k o, own h = some (k, o) := by
  cases ho : own h with
  | none => exact absurd (hc.free h hh ho).1 hk
  | some x => exact ⟨x.1, x.2, rfl⟩

theorem Quiet.chains (h0 : Chains hash n s0) (hq : Quiet s) (hc : Core arg hash n s0 own s) (hl : Locks n s) : Chains hash n s := by
  constructor
  · intro h hh
    cases e : s.lock h with
    | false => rfl
    | true =>
      obtain ⟨t, ht⟩ := hl.some h hh e
      rcases hq t with e | ⟨r, e⟩ <;> (rw [e] at ht; exact ht.elim)
  · intro h hh
    cases ho : own h with
    | none => simp [hc.free h hh ho]
    | some x =>
      obtain ⟨k, o⟩ := x
      have hk := hq.key hc ho
      have hne := hc.nosent _ _ _ ho
      cases o with
      | none =>
        obtain ⟨_, b, c⟩ := hc.old h k ho
        rw [c, ← h0.slot h hh, hk, b]
      | some t =>
        obtain ⟨i, _, _, _, e⟩ := hq.owner hc ho
        rw [hk, e]
        simp [hne]
  · intro h hh hk
    obtain ⟨k, o, ho⟩ := Quiet.owned hc hh hk
    have e := hq.key hc ho
    rw [e]
    obtain ⟨j, a, b⟩ := hc.path _ _ _ ho
    refine ⟨j, a, fun i hi => ?_⟩
    obtain ⟨k', o', c, d⟩ := b i hi
    rw [hq.key hc c]
    exact ⟨hc.nosent _ _ _ c, d⟩

theorem Quiet.dense (hd : Dense n s0) (hq : Quiet s) (hc : Core arg hash n s0 own s) {num : Nat → Nat} (hf : Fresh arg s0 own num s)
    (hcnt : s0.cnt ≤ s.cnt) : Dense n s := by
  have key : ∀ i < s.cnt, num i < n ∧ s.idx (num i) = some i ∧ s.active i = s.keys (num i) := by
    intro i hi
    obtain ⟨k, o, h1, h2, h3⟩ := hf.nums i hi
    refine ⟨hc.bound _ _ h1, ?_⟩
    rw [hq.key hc h1]
    cases o with
    | none =>
      rw [(hc.old _ _ h1).2.2]
      exact h2 rfl
    | some t =>
      obtain ⟨i', e, _, _, e'⟩ := hq.owner hc h1
      obtain ⟨x, y⟩ := h3 t rfl
      rw [e] at x y
      have x : i' = i := x
      subst x
      exact ⟨e', y rfl⟩
  have back : ∀ h < n, ∀ i, s.idx h = some i → i < s.cnt ∧ num i = h := by
    intro h hh i hi
    cases ho : own h with
    | none => rw [(hc.free h hh ho).2] at hi; cases hi
    | some x =>
      obtain ⟨k, o⟩ := x
      cases o with
      | none =>
        obtain ⟨a, b, c⟩ := hc.old h k ho
        rw [c] at hi
        have h1 := (hd.lt h hh i hi).1
        have h2 : i < s.cnt := by omega
        obtain ⟨k', o', e1, e2, e3⟩ := hf.nums i h2
        have e5 : o' = none := by
          cases o' with
          | none => rfl
          | some q =>
            have := (hf.given q i (e3 q rfl).1).2.1
            omega
        exact ⟨h2, hd.inj _ (hc.bound _ _ e1) _ hh i (e2 e5).1 hi⟩
      | some t =>
        obtain ⟨i', e, e2, _, e'⟩ := hq.owner hc ho
        rw [e'] at hi
        obtain rfl := Option.some.inj hi
        obtain ⟨g1, _, g3⟩ := hf.given t i' (by rw [e]; rfl)
        exact ⟨g1, hc.uniq _ _ _ _ t g3 ho⟩
  refine ⟨fun i hi => ⟨num i, (key i hi).1, (key i hi).2.1⟩, fun h hh i hi => ?_, fun h hh h' hh' i hi hi' => ?_⟩
  · obtain ⟨a, b⟩ := back h hh i hi
    refine ⟨a, ?_⟩
    rw [(key i a).2.2, b]
  · rw [← (back h hh i hi).2, (back h' hh' i hi').2]

/-! ## Runs -/

theorem run_fresh (hn : 0 < n) : ∀ (l : List Nat) (s : St dim) (own : Own dim), (∀ t ∈ l, (arg t).1 ≠ sent) → (∀ t ∈ l, (arg t).2 = none) →
    Core arg hash n s0 own s → Locks n s → (∃ num, Fresh arg s0 own num s) → s0.cnt ≤ s.cnt →
    ∃ s' own', run arg hash n l s = some s' ∧ Core arg hash n s0 own' s' ∧ Locks n s' ∧ (∃ num, Fresh arg s0 own' num s') ∧ s0.cnt ≤ s'.cnt := by
  intro l
  induction l with
  | nil => intro s own _ _ h1 h2 h3 h4; exact ⟨s, own, rfl, h1, h2, h3, h4⟩
  | cons t l ih =>
    intro s own hk ha h1 h2 h3 h4
    obtain ⟨num, h3⟩ := h3
    obtain ⟨s1, a1, a2, own1, a3, a4⟩ := h1.step (t := t) hn (hk t List.mem_cons_self) h2 (by
      intro i hi
      have := (h3.given t i (by rw [hi]; rfl)).1
      have := h3.cnt_le h1
      omega)
    obtain ⟨b1, b2⟩ := h3.step h1 a3 (ha t List.mem_cons_self) h4 a1
    obtain ⟨s2, own2, c1, c2⟩ := ih s1 own1 (fun q hq => hk q (List.mem_cons_of_mem _ hq)) (fun q hq => ha q (List.mem_cons_of_mem _ hq)) a4 a2 b1 b2
    exact ⟨s2, own2, by rw [run, a1]; exact c1, c2⟩

theorem step_ided (ha : (arg t).2 ≠ none) (h1 : Core arg hash n s0 own s) (a1 : step arg hash n s t = some s') :
    s'.cnt = s.cnt ∧ s'.active = s.active := by
  unfold HashTable.step at a1
  simp only at a1
  have htask := h1.task t
  cases e : s.pc t with
  | add x => rw [e] at htask; exact absurd htask.2 ha
  | active x => rw [e] at htask; exact absurd htask.2 ha
  | done r => simp only [e] at a1; cases a1; exact ⟨rfl, rfl⟩
  | start => simp only [e] at a1; split at a1 <;> cases a1; exact ⟨rfl, rfl⟩
  | lock x =>
    simp only [e] at a1
    split at a1
    · cases a1
    · split at a1 <;> (cases a1; exact ⟨rfl, rfl⟩)
  | read x =>
    simp only [e] at a1
    split at a1
    · cases a1
    · split at a1 <;> (cases a1; exact ⟨rfl, rfl⟩)
  | write x d =>
    simp only [e] at a1
    split at a1
    · cases a1
    · split at a1 <;> (cases a1; exact ⟨rfl, rfl⟩)
  | unlock x old => simp only [e] at a1; split at a1 <;> cases a1; exact ⟨rfl, rfl⟩
  | index x y => simp only [e] at a1; split at a1 <;> cases a1; exact ⟨rfl, rfl⟩

theorem run_ided (hn : 0 < n) : ∀ (l : List Nat) (s : St dim) (own : Own dim), (∀ t ∈ l, (arg t).1 ≠ sent) → (∀ t ∈ l, (arg t).2 ≠ none) →
    Core arg hash n s0 own s → Locks n s → ∃ s' own', run arg hash n l s = some s' ∧ Core arg hash n s0 own' s' ∧ Locks n s' ∧
      s'.cnt = s.cnt ∧ s'.active = s.active := by
  intro l
  induction l with
  | nil => intro s own _ _ h1 h2; exact ⟨s, own, rfl, h1, h2, rfl, rfl⟩
  | cons t l ih =>
    intro s own hk ha h1 h2
    obtain ⟨s1, a1, a2, own1, a3, a4⟩ := h1.step (t := t) hn (hk t List.mem_cons_self) h2 (by
      intro i hi
      have := h1.task t
      rw [hi] at this
      exact absurd this.2 (ha t List.mem_cons_self))
    have hsame := step_ided (ha t List.mem_cons_self) h1 a1
    obtain ⟨s2, own2, c1, c2, c3, c4, c5⟩ := ih s1 own1 (fun q hq => hk q (List.mem_cons_of_mem _ hq)) (fun q hq => ha q (List.mem_cons_of_mem _ hq)) a4 a2
    exact ⟨s2, own2, by rw [run, a1]; exact c1, c2, c3, c4.trans hsame.1, c5.trans hsame.2⟩

/-! ## Search -/

theorem next_path {k : Key dim} {i : Nat} (hn : 0 < n) (h : path hash n k i + 127 ≠ n) : next n (path hash n k i) = path hash n k (i + 1) := by
  rw [path_succ, next]
  split
  · rfl
  · rw [Nat.mod_eq_of_lt (by omega)]

theorem look_walk (hn : 0 < n) {k : Key dim} : ∀ (m fuel : Nat),
    (∀ i < m, k ≠ s.keys (path hash n k i) ∧ s.idx (path hash n k i) ≠ none ∧ path hash n k i + 127 ≠ n) →
    look n s k (m + fuel) (path hash n k 0) = look n s k fuel (path hash n k m) := by
  intro m
  induction m with
  | zero => intro fuel _; rw [Nat.zero_add]
  | succ m ih =>
    intro fuel h
    obtain ⟨h1, h2, h3⟩ := h m (by omega)
    have := ih (fuel + 1) fun i hi => h i (by omega)
    rw [show m + 1 + fuel = m + (fuel + 1) by omega, this, look, if_neg (by have := path_lt (hash := hash) hn k m; omega), if_neg h1, if_neg h2,
      next_path hn h3]

/-! ## Completion -/

open Classical in
/-- The position of a slot on the path of a key. -/
noncomputable def pos (hash : Key dim → Int) (n : Nat) (k : Key dim) (h : Nat) : Nat :=
  if e : ∃ j < n, path hash n k j = h then e.choose else 0

theorem pos_path (hc : Nat.Coprime 127 n) {k : Key dim} {j : Nat} (hj : j < n) : pos hash n k (path hash n k j) = j := by
  have e : ∃ i < n, path hash n k i = path hash n k j := ⟨j, hj, rfl⟩
  rw [pos, dif_pos e]
  exact path_inj hc k e.choose_spec.1 hj e.choose_spec.2

/-- A bound for the number of steps of an insertion that do not wait. -/
noncomputable def need (hash : Key dim → Int) (n : Nat) (k : Key dim) : Pc dim → Nat
  | .start => 3 * n + dim + 11
  | .lock h => 3 * (n - pos hash n k h) + dim + 10
  | .read h => 3 * (n - pos hash n k h) + dim + 9
  | .write _ d => dim - d + 6
  | .unlock h old => if old = sent then 5 else 3 * (n - pos hash n k h) + dim + 8
  | .add _ => 4
  | .index _ _ => 3
  | .active _ => 2
  | .done _ => 0

theorem Core.room (hn : 0 < n) (hp : Nat.Coprime 127 n) (hc : Core arg hash n s0 own s) {F : Finset (Key dim)} (hF : ∀ h k o, own h = some (k, o) → k ∈ F)
    (hcard : F.card ≤ n) {k : Key dim} (hk : k ∈ F) {j : Nat} (hj : Passed hash n own k j) : j < n := by
  classical
  by_contra hjn
  have hall : ∀ h < n, ∃ k' o, own h = some (k', o) ∧ k' ≠ k := by
    intro h hh
    obtain ⟨i, hi, rfl⟩ := path_surj (hash := hash) hp k hh
    exact hj i (by omega)
  let f : Nat → Key dim := fun h => if e : h < n then (hall h e).choose else k
  have hf : ∀ h, h < n → ∃ o, own h = some (f h, o) ∧ f h ≠ k := by
    intro h e
    obtain ⟨o, h1, h2⟩ := (hall h e).choose_spec
    exact ⟨o, by simp only [f, dif_pos e]; exact h1, by simp only [f, dif_pos e]; exact h2⟩
  have : (Finset.range n).card ≤ (F.erase k).card := by
    refine Finset.card_le_card_of_injOn f ?_ ?_
    · intro h hh
      obtain ⟨o, h1, h2⟩ := hf h (by simpa using hh)
      simp only [Finset.coe_erase, Set.mem_diff, Finset.mem_coe, Set.mem_singleton_iff]
      exact ⟨hF _ _ _ h1, h2⟩
    · intro h hh h' hh' e
      obtain ⟨o, h1, -⟩ := hf h (by simpa using hh)
      obtain ⟨o', h1', -⟩ := hf h' (by simpa using hh')
      rw [e] at h1
      exact hc.key_unique h1 h1'
  rw [Finset.card_range, Finset.card_erase_of_mem hk] at this
  have := Finset.card_pos.2 ⟨k, hk⟩
  omega

/-- A step that does not wait. -/
theorem step_need (hn : 0 < n) (hp : Nat.Coprime 127 n) (hc : Core arg hash n s0 own s) {F : Finset (Key dim)}
    (hF : ∀ h k o, own h = some (k, o) → k ∈ F) (hcard : F.card ≤ n) (hk : (arg t).1 ∈ F)
    (hdone : ∀ r, s.pc t ≠ .done r) (hwait : ∀ h, s.pc t = .lock h → s.lock h = false)
    (h : HashTable.step arg hash n s t = some s') :
    ∃ p, s'.pc = upd s.pc t p ∧ need hash n (arg t).1 p < need hash n (arg t).1 (s.pc t) := by
  have ht := hc.task t
  unfold HashTable.step at h
  simp only at h
  cases e : s.pc t with
  | start =>
    simp only [e] at h
    split at h
    · cases h
    · cases h
      refine ⟨_, rfl, ?_⟩
      simp only [need]
      omega
  | lock x =>
    simp only [e, hwait x e] at h
    split at h
    · cases h
    · cases h
      refine ⟨_, rfl, ?_⟩
      simp only [need]
      omega
  | read x =>
    rw [e] at ht
    obtain ⟨j, rfl, hj⟩ := ht
    have hjn := hc.room hn hp hF hcard hk hj
    simp only [e] at h
    split at h
    · cases h
    · split at h
      · cases h
        refine ⟨_, rfl, ?_⟩
        simp only [need]
        omega
      · next es =>
        cases h
        refine ⟨_, rfl, ?_⟩
        simp only [need, if_neg es]
        omega
  | write x d =>
    simp only [e] at h
    split at h
    · cases h
    · split at h
      · cases h
        refine ⟨_, rfl, ?_⟩
        simp only [need]
        omega
      · cases h
        refine ⟨_, rfl, ?_⟩
        simp only [need, if_true]
        omega
  | unlock x old =>
    rw [e] at ht
    simp only [TaskOk] at ht
    simp only [e] at h
    split at h
    · cases h
    · cases h
      refine ⟨_, rfl, ?_⟩
      by_cases es : old = sent
      · simp only [if_pos es, need]
        cases (arg t).2 with
        | none => simp [need]
        | some i => simp [need]
      · rw [if_neg es] at ht
        obtain ⟨⟨j, hj, hp1⟩, o, ho⟩ := ht
        simp only [if_neg es, need]
        by_cases ek : old = (arg t).1
        · rw [if_pos ek]
          simp only [need]; omega
        · rw [if_neg ek]
          have hp2 : Passed hash n own (arg t).1 (j + 1) := by
            intro i hi
            by_cases ei : i = j
            · subst ei; exact ⟨old, o, by rw [hj]; exact ho, ek⟩
            · exact hp1 i (by omega)
          have hj1 := hc.room hn hp hF hcard hk hp2
          rw [← hj, ← path_succ]
          simp only [need]
          rw [pos_path hp hj1, pos_path hp (show j < n by omega)]
          omega
  | add x => simp only [e] at h; cases h; exact ⟨_, rfl, by simp [need]⟩
  | index x i =>
    simp only [e] at h
    split at h
    · cases h
    · cases h
      refine ⟨_, rfl, ?_⟩
      cases (arg t).2 <;> simp [need]
  | active i =>
    simp only [e] at h
    split at h
    · cases h
    · cases h
      exact ⟨_, rfl, by simp [need]⟩
  | done r => exact absurd e (hdone r)

theorem finish {T : Finset Nat} {F : Finset (Key dim)} (hn : 0 < n) (hp : Nat.Coprime 127 n) (hcard : F.card ≤ n)
    (hT : ∀ t ∈ T, (arg t).1 ∈ F) {I : St dim → Prop}
    (hstep : ∀ s, I s → ∀ t ∈ T, ∃ s', step arg hash n s t = some s' ∧ I s')
    (hcore : ∀ s, I s → (∃ own, Core arg hash n s0 own s ∧ ∀ h k o, own h = some (k, o) → k ∈ F) ∧ Locks n s ∧ ∀ t, t ∉ T → s.pc t = .start) :
    ∀ (m : Nat) (s : St dim), I s → ∑ t ∈ T, need hash n (arg t).1 (s.pc t) ≤ m →
      ∃ l s', (∀ t ∈ l, t ∈ T) ∧ run arg hash n l s = some s' ∧ I s' ∧ ∀ t ∈ T, ∃ r, s'.pc t = .done r := by
  classical
  intro m
  induction m with
  | zero =>
    intro s hI hm
    refine ⟨[], s, by simp, rfl, hI, fun t ht => ?_⟩
    have h0 : need hash n (arg t).1 (s.pc t) = 0 := by
      have := Finset.sum_eq_zero_iff.1 (Nat.le_zero.1 hm) t ht
      exact this
    revert h0
    cases s.pc t with
    | done r => intro _; exact ⟨r, rfl⟩
    | unlock h old => intro h0; simp only [need] at h0; split at h0 <;> omega
    | _ => intro h0; simp only [need] at h0; omega
  | succ m ih =>
    intro s hI hm
    by_cases hall : ∀ t ∈ T, ∃ r, s.pc t = .done r
    · exact ⟨[], s, by simp, rfl, hI, hall⟩
    · push Not at hall
      obtain ⟨t, ht, hnd⟩ := hall
      obtain ⟨⟨own, hc, hF⟩, hl, hout⟩ := hcore s hI
      obtain ⟨q, hq, hqd, hqw⟩ : ∃ q ∈ T, (∀ r, s.pc q ≠ .done r) ∧ ∀ h, s.pc q = .lock h → s.lock h = false := by
        by_cases hw : ∃ h, s.pc t = .lock h ∧ s.lock h = true
        · obtain ⟨h, e1, e2⟩ := hw
          have hh : h < n := by
            have := hc.task t
            rw [e1] at this
            obtain ⟨j, rfl, _⟩ := this
            exact path_lt hn _ _
          obtain ⟨q, hq⟩ := hl.some h hh e2
          refine ⟨q, ?_, ?_, ?_⟩
          · by_contra hqT
            rw [hout q hqT] at hq; exact hq
          · intro r hr; rw [hr] at hq; exact hq
          · intro x hx; rw [hx] at hq; exact hq.elim
        · refine ⟨t, ht, hnd, fun h e => ?_⟩
          cases el : s.lock h with
          | false => rfl
          | true => exact absurd ⟨h, e, el⟩ hw
      obtain ⟨s1, h1, hI1⟩ := hstep s hI q hq
      obtain ⟨p, hp1, hp2⟩ := step_need hn hp hc hF hcard (hT q hq) hqd hqw h1
      have hsum : ∑ t ∈ T, need hash n (arg t).1 (s1.pc t) < ∑ t ∈ T, need hash n (arg t).1 (s.pc t) := by
        refine Finset.sum_lt_sum ?_ ⟨q, hq, ?_⟩
        · intro x _
          rw [hp1]
          by_cases e : x = q
          · rw [e, upd_same]; exact Nat.le_of_lt hp2
          · rw [upd_ne _ _ e]
        · rw [hp1, upd_same]; exact hp2
      obtain ⟨l, s2, a1, a2, a3⟩ := ih s1 hI1 (by omega)
      exact ⟨q :: l, s2, by simpa using ⟨hq, a1⟩, by rw [run, h1]; exact a2, a3⟩

end Verif.HashTable
