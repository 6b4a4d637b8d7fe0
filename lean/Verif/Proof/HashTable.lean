import Verif.Model.HashTable
import Mathlib.Data.Nat.ModEq
import Mathlib.Data.Int.GCD
import Mathlib.Data.Fintype.EquivFin
import Mathlib.Algebra.BigOperators.Group.Finset.Basic
import Mathlib.Tactic.Ring

/-! Helper lemmas for C38: the probe sequence and the invariant of concurrent insertion. -/
namespace Verif.HashTable

variable {dim : Nat} {arg : Nat → Key dim × Option Nat} {hash : Key dim → Int} {n : Nat}

@[simp] theorem upd_same {α : Type} (f : Nat → α) (i : Nat) (x : α) : upd f i x i = x := by simp [upd]

theorem upd_ne {α : Type} (f : Nat → α) {i j : Nat} (x : α) (h : j ≠ i) : upd f i x j = f j := by simp [upd, h]

theorem start_lt (hn : 0 < n) (h : Int) : start n h < n := by
  unfold start
  have h1 : -(n : Int) < h.tmod n := by
    have := Int.lt_tmod_of_pos h (show (0 : Int) < n by omega)
    omega
  have h2 : 0 ≤ (h.tmod n + n).tmod n := Int.tmod_nonneg _ (by omega)
  have h3 : (h.tmod n + n).tmod n < n := Int.tmod_lt_of_pos _ (by omega)
  omega

/-- Position `j` of the probe sequence of a key. -/
def path (hash : Key dim → Int) (n : Nat) (k : Key dim) (j : Nat) : Nat := (start n (hash k) + 127 * j) % n

theorem path_zero (hn : 0 < n) (k : Key dim) : path hash n k 0 = start n (hash k) := by
  unfold path
  rw [Nat.mul_zero, Nat.add_zero, Nat.mod_eq_of_lt (start_lt hn _)]

theorem path_succ (k : Key dim) (j : Nat) : path hash n k (j + 1) = (path hash n k j + 127) % n := by
  unfold path
  rw [Nat.mod_add_mod, Nat.mul_add, Nat.mul_one, Nat.add_assoc]

theorem path_lt (hn : 0 < n) (k : Key dim) (j : Nat) : path hash n k j < n := Nat.mod_lt _ hn

theorem path_inj (hc : Nat.Coprime 127 n) (k : Key dim) {i j : Nat} (hi : i < n) (hj : j < n)
    (h : path hash n k i = path hash n k j) : i = j := by
  have h1 : 127 * i ≡ 127 * j [MOD n] := Nat.ModEq.add_left_cancel' _ h
  have h2 : i ≡ j [MOD n] := Nat.ModEq.cancel_left_of_coprime (by rw [Nat.coprime_comm.1 hc]) h1
  exact Nat.ModEq.eq_of_lt_of_lt h2 hi hj

theorem path_surj (hc : Nat.Coprime 127 n) (k : Key dim) {h : Nat} (hh : h < n) : ∃ j < n, path hash n k j = h := by
  have hn : 0 < n := by omega
  let f : Fin n → Fin n := fun j => ⟨path hash n k j, path_lt hn k j⟩
  have hf : Function.Injective f := by
    intro a b hab
    exact Fin.ext (path_inj hc k a.2 b.2 (Fin.mk.inj hab))
  obtain ⟨j, hj⟩ := Finite.injective_iff_surjective.1 hf ⟨h, hh⟩
  exact ⟨j, j.2, congrArg Fin.val hj⟩

theorem pow_coprime (k : Nat) : Nat.Coprime 127 (2 ^ k) := Nat.Coprime.pow_right k (by decide)

/-! ## Locks -/

def Pc.holds : Pc dim → Nat → Prop
  | .read h, x => h = x
  | .write h _, x => h = x
  | .unlock h _, x => h = x
  | _, _ => False

structure Locks (n : Nat) (s : St dim) : Prop where
  held : ∀ t h, (s.pc t).holds h → s.lock h = true
  excl : ∀ t t' h, (s.pc t).holds h → (s.pc t').holds h → t = t'
  some : ∀ h, h < n → s.lock h = true → ∃ t, (s.pc t).holds h

/-- A step that neither takes nor releases a lock. -/
theorem Locks.keep {s s' : St dim} (hl : Locks n s) {t : Nat} {p : Pc dim} (h1 : s'.lock = s.lock) (h2 : s'.pc = upd s.pc t p)
    (h3 : ∀ h, p.holds h ↔ (s.pc t).holds h) : Locks n s' := by
  have h4 : ∀ q h, (s'.pc q).holds h ↔ (s.pc q).holds h := by
    intro q h
    rw [h2]
    by_cases e : q = t
    · rw [e, upd_same]; exact h3 h
    · rw [upd_ne _ _ e]
  refine ⟨fun q h hh => ?_, fun q q' h hh hh' => ?_, fun h hn hh => ?_⟩
  · rw [h1]; exact hl.held q h ((h4 q h).1 hh)
  · exact hl.excl q q' h ((h4 q h).1 hh) ((h4 q' h).1 hh')
  · obtain ⟨q, hq⟩ := hl.some h hn (by rw [← h1]; exact hh)
    exact ⟨q, (h4 q h).2 hq⟩

theorem Locks.take {s s' : St dim} (hl : Locks n s) {t h0 : Nat} (h0f : s.lock h0 = false) (h1 : s'.lock = upd s.lock h0 true)
    (h2 : s'.pc = upd s.pc t (.read h0)) (h3 : ∀ h, ¬ (s.pc t).holds h) : Locks n s' := by
  have h4 : ∀ q h, (s'.pc q).holds h ↔ (s.pc q).holds h ∨ q = t ∧ h0 = h := by
    intro q h
    rw [h2]
    by_cases e : q = t
    · rw [e, upd_same]; exact ⟨fun x => .inr ⟨rfl, x⟩, fun x => x.elim (fun y => absurd y (h3 h)) fun y => y.2⟩
    · rw [upd_ne _ _ e]; simp [e]
  refine ⟨fun q h hh => ?_, fun q q' h hh hh' => ?_, fun h hn hh => ?_⟩
  · rw [h1]
    by_cases e : h = h0
    · rw [e, upd_same]
    · rw [upd_ne _ _ e]
      rcases (h4 q h).1 hh with x | x
      · exact hl.held q h x
      · exact absurd x.2.symm e
  · rcases (h4 q h).1 hh with x | x <;> rcases (h4 q' h).1 hh' with y | y
    · exact hl.excl q q' h x y
    · have := hl.held q h x
      rw [← y.2, h0f] at this; cases this
    · have := hl.held q' h y
      rw [← x.2, h0f] at this; cases this
    · exact x.1.trans y.1.symm
  · rw [h1] at hh
    by_cases e : h = h0
    · exact ⟨t, (h4 t h).2 (.inr ⟨rfl, e.symm⟩)⟩
    · rw [upd_ne _ _ e] at hh
      obtain ⟨q, hq⟩ := hl.some h hn hh
      exact ⟨q, (h4 q h).2 (.inl hq)⟩

theorem Locks.release {s s' : St dim} (hl : Locks n s) {t h0 : Nat} {p : Pc dim} (h1 : s'.lock = upd s.lock h0 false)
    (h2 : s'.pc = upd s.pc t p) (h3 : ∀ h, (s.pc t).holds h ↔ h0 = h) (h5 : ∀ h, ¬ p.holds h) : Locks n s' := by
  have h4 : ∀ q h, (s'.pc q).holds h ↔ (s.pc q).holds h ∧ q ≠ t := by
    intro q h
    rw [h2]
    by_cases e : q = t
    · rw [e, upd_same]; simp [h5]
    · rw [upd_ne _ _ e]; simp [e]
  refine ⟨fun q h hh => ?_, fun q q' h hh hh' => ?_, fun h hn hh => ?_⟩
  · obtain ⟨x, y⟩ := (h4 q h).1 hh
    rw [h1]
    by_cases e : h = h0
    · exact absurd (hl.excl q t h x ((h3 h).2 e.symm)) y
    · rw [upd_ne _ _ e]; exact hl.held q h x
  · exact hl.excl q q' h ((h4 q h).1 hh).1 ((h4 q' h).1 hh').1
  · rw [h1] at hh
    by_cases e : h = h0
    · rw [e, upd_same] at hh; cases hh
    · rw [upd_ne _ _ e] at hh
      obtain ⟨q, hq⟩ := hl.some h hn hh
      refine ⟨q, (h4 q h).2 ⟨hq, ?_⟩⟩
      rintro rfl
      exact e ((h3 h).1 hq).symm

/-! ## Slots -/

/-- The owner of a slot: its key, and the task that wrote it (`none`: it was there before). -/
abbrev Own (dim : Nat) := Nat → Option (Key dim × Option Nat)

/-- The first `j` slots on the path of `k` are taken by other keys. -/
def Passed (hash : Key dim → Int) (n : Nat) (own : Own dim) (k : Key dim) (j : Nat) : Prop :=
  ∀ i < j, ∃ k' o, own (path hash n k i) = some (k', o) ∧ k' ≠ k

def At (hash : Key dim → Int) (n : Nat) (own : Own dim) (k : Key dim) (h : Nat) : Prop :=
  ∃ j, path hash n k j = h ∧ Passed hash n own k j

def Le (own own' : Own dim) : Prop := ∀ h x, own h = some x → own' h = some x

theorem At.mono {own own' : Own dim} (hle : Le own own') {k : Key dim} {h : Nat} (ha : At hash n own k h) : At hash n own' k h := by
  obtain ⟨j, h1, h2⟩ := ha
  refine ⟨j, h1, fun i hi => ?_⟩
  obtain ⟨k', o, h3, h4⟩ := h2 i hi
  exact ⟨k', o, hle _ _ h3, h4⟩

/-- What the owner's place in the code says about its slot. -/
def Pc.owns : Pc dim → Nat → Prop
  | .write h _, x => h = x
  | .unlock h old, x => h = x ∧ old = sent
  | .add h, x => h = x
  | .index h _, x => h = x
  | .active _, _ => True
  | .done (some _), _ => True
  | _, _ => False

def Pc.part : Pc dim → Key dim → Key dim
  | .write _ d, k => fun e => if e.val < d then k e else sent e
  | _, k => k

def Pc.number : Pc dim → Option Nat
  | .active i => some i
  | .done r => r
  | _ => none

def TaskOk (arg : Nat → Key dim × Option Nat) (hash : Key dim → Int) (n : Nat) (own : Own dim) (t : Nat) : Pc dim → Prop
  | .start => True
  | .lock h => At hash n own (arg t).1 h
  | .read h => At hash n own (arg t).1 h
  | .write h _ => own h = some ((arg t).1, some t)
  | .unlock h old =>
    if old = sent then own h = some ((arg t).1, some t) else At hash n own (arg t).1 h ∧ ∃ o, own h = some (old, o)
  | .add h => own h = some ((arg t).1, some t) ∧ (arg t).2 = none
  | .index h i => own h = some ((arg t).1, some t) ∧ ∀ x, (arg t).2 = some x → i = x
  | .active _ => (∃ h, own h = some ((arg t).1, some t)) ∧ (arg t).2 = none
  | .done (some i) => (∃ h, own h = some ((arg t).1, some t)) ∧ ∀ x, (arg t).2 = some x → i = x
  | .done none => ∃ h o, own h = some ((arg t).1, o) ∧ o ≠ some t

theorem TaskOk.mono {own own' : Own dim} (hle : Le own own') {t : Nat} {p : Pc dim} (h : TaskOk arg hash n own t p) :
    TaskOk arg hash n own' t p := by
  cases p with
  | start => trivial
  | lock x => exact At.mono hle h
  | read x => exact At.mono hle h
  | write x d => exact hle _ _ h
  | unlock x old =>
    simp only [TaskOk] at h ⊢
    split
    · next e => rw [if_pos e] at h; exact hle _ _ h
    · next e => rw [if_neg e] at h; exact ⟨h.1.mono hle, h.2.imp fun o ho => hle _ _ ho⟩
  | add x => exact ⟨hle _ _ h.1, h.2⟩
  | index x i => exact ⟨hle _ _ h.1, h.2⟩
  | active i => exact ⟨h.1.imp fun x hx => hle _ _ hx, h.2⟩
  | done r =>
    cases r with
    | none => obtain ⟨x, o, h1, h2⟩ := h; exact ⟨x, o, hle _ _ h1, h2⟩
    | some i => exact ⟨h.1.imp fun x hx => hle _ _ hx, h.2⟩

structure Core (arg : Nat → Key dim × Option Nat) (hash : Key dim → Int) (n : Nat) (s0 : St dim) (own : Own dim) (s : St dim) : Prop where
  bound : ∀ h x, own h = some x → h < n
  free : ∀ h, h < n → own h = none → s.keys h = sent ∧ s.idx h = none
  old : ∀ h k, own h = some (k, none) → s.keys h = k ∧ s0.keys h = k ∧ s.idx h = s0.idx h
  mine : ∀ h k t, own h = some (k, some t) →
    k = (arg t).1 ∧ (s.pc t).owns h ∧ s.keys h = (s.pc t).part k ∧ s.idx h = (s.pc t).number ∧ s0.keys h = sent
  uniq : ∀ h h' k k' t, own h = some (k, some t) → own h' = some (k', some t) → h = h'
  nosent : ∀ h k o, own h = some (k, o) → k ≠ sent
  path : ∀ h k o, own h = some (k, o) → At hash n own k h
  task : ∀ t, TaskOk arg hash n own t (s.pc t)
  orig : ∀ h, h < n → s0.keys h ≠ sent → own h = some (s0.keys h, none)

variable {s0 s s' : St dim} {own own' : Own dim} {t : Nat}

theorem Core.frame (hc : Core arg hash n s0 own s) {p : Pc dim} (hle : Le own own') (hpc : s'.pc = upd s.pc t p)
    (same : ∀ h, (∀ k, own' h ≠ some (k, some t)) → s'.keys h = s.keys h ∧ s'.idx h = s.idx h ∧ own' h = own h)
    (mine : ∀ h k, own' h = some (k, some t) →
      h < n ∧ k = (arg t).1 ∧ k ≠ sent ∧ p.owns h ∧ s'.keys h = p.part k ∧ s'.idx h = p.number ∧ At hash n own k h ∧ s0.keys h = sent)
    (uniq : ∀ h h' k k', own' h = some (k, some t) → own' h' = some (k', some t) → h = h')
    (task : TaskOk arg hash n own' t p) : Core arg hash n s0 own' s' := by
  have back : ∀ h x, own' h = some x → (∃ k, x = (k, some t)) ∨ ((∀ k, x ≠ (k, some t)) ∧ s'.keys h = s.keys h ∧ s'.idx h = s.idx h ∧ own h = some x) := by
    intro h x hx
    by_cases e : ∃ k, x = (k, some t)
    · exact .inl e
    · have e' : ∀ k, x ≠ (k, some t) := fun k hk => e ⟨k, hk⟩
      obtain ⟨a, b, c⟩ := same h (fun k hk => e' k (Option.some.inj (hx.symm.trans hk)))
      exact .inr ⟨e', a, b, by rw [← c]; exact hx⟩
  constructor
  · intro h x hx
    rcases back h x hx with ⟨k, rfl⟩ | ⟨_, _, _, h3⟩
    · exact (mine h k hx).1
    · exact hc.bound h x h3
  · intro h hn hx
    obtain ⟨a, b, c⟩ := same h (fun k hk => by rw [hx] at hk; cases hk)
    rw [a, b]
    exact hc.free h hn (by rw [← c]; exact hx)
  · intro h k hx
    rcases back h _ hx with ⟨k, e⟩ | ⟨_, h1, h2, h3⟩
    · cases e
    · rw [h1, h2]; exact hc.old h k h3
  · intro h k q hx
    rcases back h _ hx with ⟨k', e⟩ | ⟨h0, h1, h2, h3⟩
    · cases e
      obtain ⟨_, m1, _, m2, m3, m4, _, m5⟩ := mine h k hx
      rw [hpc, upd_same]
      exact ⟨m1, m2, m3, m4, m5⟩
    · have hq : q ≠ t := by rintro rfl; exact h0 k rfl
      rw [h1, h2, hpc, upd_ne _ _ hq]
      exact hc.mine h k q h3
  · intro h h' k k' q hx hx'
    by_cases e : q = t
    · subst e; exact uniq h h' k k' hx hx'
    · rcases back h _ hx with ⟨_, e'⟩ | ⟨_, _, _, h3⟩
      · cases e'; exact absurd rfl e
      · rcases back h' _ hx' with ⟨_, e'⟩ | ⟨_, _, _, h3'⟩
        · cases e'; exact absurd rfl e
        · exact hc.uniq h h' k k' q h3 h3'
  · intro h k o hx
    rcases back h _ hx with ⟨k', e⟩ | ⟨_, _, _, h3⟩
    · cases e; exact (mine h k hx).2.2.1
    · exact hc.nosent h k o h3
  · intro h k o hx
    rcases back h _ hx with ⟨k', e⟩ | ⟨_, _, _, h3⟩
    · cases e; exact (mine h k hx).2.2.2.2.2.2.1.mono hle
    · exact (hc.path h k o h3).mono hle
  · intro q
    rw [hpc]
    by_cases e : q = t
    · rw [e, upd_same]; exact task
    · rw [upd_ne _ _ e]; exact (hc.task q).mono hle
  · intro h hn hk
    exact hle _ _ (hc.orig h hn hk)

/-- Nothing but the place of `t` changes, and `t` owns no slot. -/
theorem Core.move (hc : Core arg hash n s0 own s) {p : Pc dim} (hpc : s'.pc = upd s.pc t p) (hk : s'.keys = s.keys) (hi : s'.idx = s.idx)
    (hno : ∀ h, ¬ (s.pc t).owns h) (task : TaskOk arg hash n own t p) : Core arg hash n s0 own s' := by
  refine hc.frame (fun _ _ h => h) hpc (fun h _ => by rw [hk, hi]; exact ⟨rfl, rfl, rfl⟩) ?_ ?_ task
  · intro h k hx
    exact absurd (hc.mine h k t hx).2.1 (hno h)
  · intro h h' k k' hx _
    exact absurd (hc.mine h k t hx).2.1 (hno h)

/-- `t` owns the slot `h` and changes its place and the slot. -/
theorem Core.work (hc : Core arg hash n s0 own s) {p : Pc dim} {h : Nat} (ho : own h = some ((arg t).1, some t))
    (hpc : s'.pc = upd s.pc t p) (hk : ∀ x, x ≠ h → s'.keys x = s.keys x ∧ s'.idx x = s.idx x)
    (howns : p.owns h) (hpart : s'.keys h = p.part (arg t).1) (hnum : s'.idx h = p.number)
    (task : TaskOk arg hash n own t p) : Core arg hash n s0 own s' := by
  refine hc.frame (fun _ _ h => h) hpc ?_ ?_ (fun h h' k k' => hc.uniq h h' k k' t) task
  · intro x hx
    have : x ≠ h := by rintro rfl; exact hx _ ho
    exact ⟨(hk x this).1, (hk x this).2, rfl⟩
  · intro x k hx
    have e := hc.uniq x h _ _ t hx ho
    subst e
    have e := Option.some.inj (hx.symm.trans ho)
    have e : k = (arg t).1 := (Prod.mk.inj e).1
    subst e
    exact ⟨hc.bound _ _ ho, rfl, hc.nosent _ _ _ ho, howns, hpart, hnum, hc.path _ _ _ ho, (hc.mine _ _ _ ho).2.2.2.2⟩

theorem Core.key_unique (hc : Core arg hash n s0 own s) {h h' : Nat} {k : Key dim} {o o' : Option Nat} (h1 : own h = some (k, o))
    (h2 : own h' = some (k, o')) : h = h' := by
  obtain ⟨j, p1, p2⟩ := hc.path h k o h1
  obtain ⟨j', q1, q2⟩ := hc.path h' k o' h2
  rcases Nat.lt_trichotomy j j' with l | l | l
  · obtain ⟨k', o'', e, ne⟩ := q2 j l
    rw [p1, h1] at e
    exact absurd (Prod.mk.inj (Option.some.inj e)).1.symm ne
  · rw [← p1, ← q1, l]
  · obtain ⟨k', o'', e, ne⟩ := p2 j' l
    rw [q1, h2] at e
    exact absurd (Prod.mk.inj (Option.some.inj e)).1.symm ne

/-- Every access of an insertion is defined and keeps the invariant, if the number for `_activeKeys` is
inside the table. -/
theorem Core.step (hn : 0 < n) (hk : (arg t).1 ≠ sent) (hc : Core arg hash n s0 own s) (hl : Locks n s)
    (ha : ∀ i, s.pc t = .active i → i < n) :
    ∃ s', HashTable.step arg hash n s t = some s' ∧ Locks n s' ∧ (∃ own', Le own own' ∧ Core arg hash n s0 own' s') := by
  have ht := hc.task t
  unfold HashTable.step
  cases e : s.pc t with
  | start =>
    refine ⟨s.goto t (.lock (start n (hash (arg t).1))), by simp only; rw [if_neg (by omega)], ?_, own, fun _ _ h => h, ?_⟩
    · exact hl.keep rfl rfl (by rw [e]; simp [Pc.holds])
    · exact hc.move rfl rfl rfl (by rw [e]; simp [Pc.owns]) ⟨0, path_zero hn _, fun i hi => by omega⟩
  | lock h =>
    rw [e] at ht
    have hh : h < n := by obtain ⟨j, rfl, _⟩ := ht; exact path_lt hn _ _
    simp only [if_neg (show ¬ n ≤ h by omega)]
    cases el : s.lock h with
    | true => exact ⟨s, by simp, hl, own, fun _ _ h => h, hc⟩
    | false =>
      refine ⟨_, by simp; rfl, ?_, own, fun _ _ h => h, ?_⟩
      · exact hl.take el rfl rfl (by rw [e]; simp [Pc.holds])
      · exact hc.move rfl rfl rfl (by rw [e]; simp [Pc.owns]) ht
  | read h =>
    rw [e] at ht
    have hh : h < n := by obtain ⟨j, rfl, _⟩ := ht; exact path_lt hn _ _
    simp only [if_neg (show ¬ n ≤ h by omega)]
    have hkey : ∀ k o, own h = some (k, o) → s.keys h = k := by
      intro k o ho
      cases o with
      | none => exact (hc.old h k ho).1
      | some q =>
        obtain ⟨m1, m2, m3, m4, m5⟩ := hc.mine h k q ho
        rw [m3]
        cases eq : s.pc q with
        | write h' d =>
          rw [eq] at m2
          have := hl.excl q t h (by rw [eq]; exact m2) (by rw [e]; rfl)
          subst this
          rw [e] at eq; cases eq
        | _ => rfl
    by_cases es : s.keys h = sent
    · rw [if_pos es]
      have hnone : own h = none := by
        cases ho : own h with
        | none => rfl
        | some x =>
          obtain ⟨k, o⟩ := x
          exact absurd ((hkey k o ho).symm.trans es) (hc.nosent h k o ho)
      have hle : Le own (upd own h (some ((arg t).1, some t))) := by
        intro x y hx
        rw [upd_ne]
        · exact hx
        · rintro rfl; rw [hnone] at hx; cases hx
      have hno : ∀ x k, own x ≠ some (k, some t) := by
        intro x k hx
        have := (hc.mine x k t hx).2.1
        rw [e] at this; exact this
      have hown : ∀ x k, upd own h (some ((arg t).1, some t)) x = some (k, some t) → x = h := by
        intro x k hx
        refine Decidable.byContradiction fun ne => ?_
        rw [upd_ne _ _ ne] at hx
        exact hno x k hx
      refine ⟨_, rfl, hl.keep rfl rfl (by rw [e]; simp [Pc.holds]), upd own h (some ((arg t).1, some t)), hle, ?_⟩
      refine hc.frame hle rfl ?_ ?_ ?_ (by show upd own h _ h = _; rw [upd_same])
      · intro x hx
        refine ⟨rfl, rfl, upd_ne _ _ ?_⟩
        rintro rfl; exact hx _ (upd_same _ _ _)
      · intro x k hx
        have ex := hown x k hx
        subst ex
        rw [upd_same] at hx
        have ek : (arg t).1 = k := (Prod.mk.inj (Option.some.inj hx)).1
        subst ek
        refine ⟨hh, rfl, hk, rfl, ?_, (hc.free x hh hnone).2, ht, ?_⟩
        · show s.keys x = _
          rw [es]; funext e; simp [Pc.part]
        · refine Decidable.byContradiction fun ne => ?_
          have := hc.orig x hh ne
          rw [hnone] at this; cases this
      · intro x x' k k' hx hx'
        rw [hown x k hx, hown x' k' hx']
    · rw [if_neg es]
      refine ⟨_, rfl, hl.keep rfl rfl (by rw [e]; simp [Pc.holds]), own, fun _ _ h => h, ?_⟩
      refine hc.move rfl rfl rfl (by rw [e]; simp [Pc.owns]) ?_
      simp only [TaskOk]
      rw [if_neg es]
      refine ⟨ht, ?_⟩
      cases ho : own h with
      | none => exact absurd (hc.free h hh ho).1 es
      | some x =>
        obtain ⟨k, o⟩ := x
        exact ⟨o, by rw [hkey k o ho]⟩
  | write h d =>
    rw [e] at ht
    have hh : h < n := hc.bound _ _ ht
    simp only [if_neg (show ¬ n ≤ h by omega)]
    obtain ⟨-, -, m3, m4, -⟩ := hc.mine _ _ _ ht
    rw [e] at m3 m4
    by_cases hd : d < dim
    · rw [if_pos hd]
      refine ⟨_, rfl, hl.keep rfl rfl (by rw [e]; simp [Pc.holds]), own, fun _ _ h => h, ?_⟩
      refine hc.work ht rfl (fun x hx => ⟨upd_ne _ _ hx, rfl⟩) rfl ?_ m4 ht
      show upd s.keys h _ h = _
      rw [upd_same, m3]
      funext i
      simp only [Pc.part, setComp]
      by_cases e1 : i.val = d
      · rw [if_pos e1, if_pos (by omega)]
      · rw [if_neg e1]
        by_cases e2 : i.val < d
        · rw [if_pos e2, if_pos (by omega)]
        · rw [if_neg e2, if_neg (by omega)]
    · rw [if_neg hd]
      refine ⟨_, rfl, hl.keep rfl rfl (by rw [e]; simp [Pc.holds]), own, fun _ _ h => h, ?_⟩
      refine hc.work ht rfl (fun x hx => ⟨rfl, rfl⟩) ⟨rfl, rfl⟩ ?_ m4 ?_
      · show s.keys h = _
        rw [m3]
        funext i
        simp only [Pc.part]
        rw [if_pos (by omega)]
      · simp only [TaskOk]; rw [if_pos trivial]; exact ht
  | unlock h old =>
    rw [e] at ht
    simp only [TaskOk] at ht
    by_cases es : old = sent
    · rw [if_pos es] at ht
      have hh : h < n := hc.bound _ _ ht
      simp only [if_neg (show ¬ n ≤ h by omega), if_pos es]
      obtain ⟨-, -, m3, m4, -⟩ := hc.mine _ _ _ ht
      rw [e] at m3 m4
      cases ea : (arg t).2 with
      | none =>
        refine ⟨_, rfl, hl.release rfl rfl (by rw [e]; simp [Pc.holds]) (by simp [Pc.holds]), own, fun _ _ h => h, ?_⟩
        exact hc.work ht rfl (fun x hx => ⟨rfl, rfl⟩) rfl m3 m4 ⟨ht, ea⟩
      | some i =>
        refine ⟨_, rfl, hl.release rfl rfl (by rw [e]; simp [Pc.holds]) (by simp [Pc.holds]), own, fun _ _ h => h, ?_⟩
        exact hc.work ht rfl (fun x hx => ⟨rfl, rfl⟩) rfl m3 m4 ⟨ht, fun x hx => by rw [ea] at hx; exact Option.some.inj hx⟩
    · rw [if_neg es] at ht
      obtain ⟨hat, o, ho⟩ := ht
      have hh : h < n := hc.bound _ _ ho
      simp only [if_neg (show ¬ n ≤ h by omega), if_neg es]
      by_cases ek : old = (arg t).1
      · rw [if_pos ek]
        refine ⟨_, rfl, hl.release rfl rfl (by rw [e]; simp [Pc.holds]) (by simp [Pc.holds]), own, fun _ _ h => h, ?_⟩
        refine hc.move rfl rfl rfl (by rw [e]; simp [Pc.owns, es]) ⟨h, o, by rw [← ek]; exact ho, ?_⟩
        rintro rfl
        have := (hc.mine _ _ _ ho).2.1
        rw [e] at this
        exact es this.2
      · rw [if_neg ek]
        refine ⟨_, rfl, hl.release rfl rfl (by rw [e]; simp [Pc.holds]) (by simp [Pc.holds]), own, fun _ _ h => h, ?_⟩
        refine hc.move rfl rfl rfl (by rw [e]; simp [Pc.owns, es]) ?_
        obtain ⟨j, h1, h2⟩ := hat
        refine ⟨j + 1, by rw [path_succ, h1], fun i hi => ?_⟩
        by_cases ei : i = j
        · subst ei; exact ⟨old, o, by rw [h1]; exact ho, ek⟩
        · exact h2 i (by omega)
  | add h =>
    rw [e] at ht
    obtain ⟨ht, ea⟩ := ht
    obtain ⟨-, -, m3, m4, -⟩ := hc.mine _ _ _ ht
    rw [e] at m3 m4
    refine ⟨_, rfl, hl.keep rfl rfl (by rw [e]; simp [Pc.holds]), own, fun _ _ h => h, ?_⟩
    exact hc.work ht rfl (fun x hx => ⟨rfl, rfl⟩) rfl m3 m4 ⟨ht, fun x hx => by rw [ea] at hx; cases hx⟩
  | index h i =>
    rw [e] at ht
    obtain ⟨ht, ea⟩ := ht
    have hh : h < n := hc.bound _ _ ht
    simp only [if_neg (show ¬ n ≤ h by omega)]
    obtain ⟨-, -, m3, m4, -⟩ := hc.mine _ _ _ ht
    rw [e] at m3 m4
    cases ea' : (arg t).2 with
    | none =>
      refine ⟨_, rfl, hl.keep rfl rfl (by rw [e]; simp [Pc.holds]), own, fun _ _ h => h, ?_⟩
      exact hc.work ht rfl (fun x hx => ⟨rfl, upd_ne _ _ hx⟩) trivial m3 (upd_same _ _ _) ⟨⟨h, ht⟩, ea'⟩
    | some x =>
      refine ⟨_, rfl, hl.keep rfl rfl (by rw [e]; simp [Pc.holds]), own, fun _ _ h => h, ?_⟩
      exact hc.work ht rfl (fun x hx => ⟨rfl, upd_ne _ _ hx⟩) trivial m3 (upd_same _ _ _) ⟨⟨h, ht⟩, ea⟩
  | active i =>
    rw [e] at ht
    obtain ⟨⟨h, ht⟩, ea⟩ := ht
    obtain ⟨-, -, m3, m4, -⟩ := hc.mine _ _ _ ht
    rw [e] at m3 m4
    have := ha i e
    simp only [if_neg (show ¬ n ≤ i by omega)]
    refine ⟨_, rfl, hl.keep rfl rfl (by rw [e]; simp [Pc.holds]), own, fun _ _ h => h, ?_⟩
    exact hc.work ht rfl (fun x hx => ⟨rfl, rfl⟩) trivial m3 m4 ⟨⟨h, ht⟩, fun x hx => by rw [ea] at hx; cases hx⟩
  | done r => exact ⟨s, rfl, hl, own, fun _ _ h => h, hc⟩

end Verif.HashTable
