import Verif.Spec.Atomics
/-! Helper lemmas for the atomics. -/
namespace Verif.Atomics

variable {α : Type} [DecidableEq α]

/-- The program point belongs to the call. -/
def At (A : Arith α) (D : α → Prop) (c : Call α) : Pc α → Prop
  | .start => True
  | .addCas v _ => c = .add v
  | .maxCas v a => c = .max v ∧ D a ∧ A.lt a v = true
  | .minCas v a => c = .min v ∧ D a ∧ A.lt v a = true

/-- Every access either leaves the memory alone and stays inside the call, or takes effect as the whole
call does and returns the value found. -/
theorem access_spec {A : Arith α} {D : α → Prop} (hA : Distinguishes A D) {mem : α} (hm : D mem)
    {c : Call α} {p : Pc α} (hp : At A D c p) :
    (∃ q, access A mem c p = (mem, .go q) ∧ At A D c q) ∨
      access A mem c p = (c.apply A mem, .ret mem) := by
  have hmax : ∀ v, c = .max v → (∃ q, maxTest A v mem = .go q ∧ At A D c q) ∨
      (maxTest A v mem = .ret mem ∧ c.apply A mem = mem) := by
    rintro v rfl
    unfold maxTest
    cases h : A.lt mem v
    · right; simp [Call.apply, h]
    · left; exact ⟨.maxCas v mem, by simp, rfl, hm, h⟩
  have hmin : ∀ v, c = .min v → (∃ q, minTest A v mem = .go q ∧ At A D c q) ∨
      (minTest A v mem = .ret mem ∧ c.apply A mem = mem) := by
    rintro v rfl
    unfold minTest
    cases h : A.lt v mem
    · right; simp [Call.apply, h]
    · left; exact ⟨.minCas v mem, by simp, rfl, hm, h⟩
  cases p with
  | start =>
    cases c with
    | add v => exact .inl ⟨.addCas v mem, rfl, rfl⟩
    | fetchAdd v => exact .inr rfl
    | max v =>
      rcases hmax v rfl with ⟨q, h1, h2⟩ | ⟨h1, h2⟩
      · exact .inl ⟨q, by simp [access, h1], h2⟩
      · exact .inr (by rw [h2]; simp [access, h1])
    | min v =>
      rcases hmin v rfl with ⟨q, h1, h2⟩ | ⟨h1, h2⟩
      · exact .inl ⟨q, by simp [access, h1], h2⟩
      · exact .inr (by rw [h2]; simp [access, h1])
    | exch v => exact .inr rfl
    | cas e d => exact .inr rfl
    | bits f => exact .inr rfl
  | addCas v old =>
    have hc : c = .add v := hp
    subst hc
    by_cases h : mem = old
    · right; simp [access, cas, h, Call.apply]
    · left; exact ⟨.addCas v mem, by simp [access, cas, h], rfl⟩
  | maxCas v a =>
    obtain ⟨hc, ha, hlt⟩ := hp
    subst hc
    by_cases h : mem = a
    · right; simp [access, cas, h, Call.apply, hlt, hA.refl a v ha (.inl hlt)]
    · have hne := hA.differ mem a v hm ha (.inl hlt) h
      rcases hmax v rfl with ⟨q, h1, h2⟩ | ⟨h1, h2⟩
      · exact .inl ⟨q, by simp [access, cas, h, h1, hne], h2⟩
      · exact .inr (by rw [h2]; simp [access, cas, h, h1, hne])
  | minCas v a =>
    obtain ⟨hc, ha, hlt⟩ := hp
    subst hc
    by_cases h : mem = a
    · right; simp [access, cas, h, Call.apply, hlt, hA.refl a v ha (.inr hlt)]
    · have hne := hA.differ mem a v hm ha (.inr hlt) h
      rcases hmin v rfl with ⟨q, h1, h2⟩ | ⟨h1, h2⟩
      · exact .inl ⟨q, by simp [access, cas, h, h1, hne], h2⟩
      · exact .inr (by rw [h2]; simp [access, cas, h, h1, hne])

theorem legal_snoc {A : Arith α} {x y : α} {l : List (Nat × Call α × α)} (h : Legal A x l y) (t : Nat)
    (c : Call α) : Legal A x (l ++ [(t, c, y)]) (c.apply A y) := by
  induction l generalizing x with
  | nil => cases h; exact ⟨rfl, rfl⟩
  | cons a l ih => exact ⟨h.1, ih h.2⟩

theorem upd_self {β : Type} (f : Nat → β) (i : Nat) (x : β) : upd f i x i = x := by simp [upd]
theorem upd_ne {β : Type} (f : Nat → β) {i j : Nat} (h : j ≠ i) (x : β) : upd f i x j = f j := by
  simp [upd, h]

structure Inv (A : Arith α) (D : α → Prop) (x : α) (todo : Nat → List (Call α)) (s : St α) : Prop where
  legal : Legal A x s.done s.mem
  dom : D s.mem
  prog : ∀ t, finished s t ++ s.todo t = todo t
  at_ : ∀ t c cs, s.todo t = c :: cs → At A D c (s.pc t)
  idle : ∀ t, s.todo t = [] → s.pc t = .start

theorem inv_step {A : Arith α} {D : α → Prop} (hA : Distinguishes A D) {x : α}
    {todo : Nat → List (Call α)} (hD : ∀ t, ∀ c ∈ todo t, c.Stays A D) {s : St α}
    (h : Inv A D x todo s) (t : Nat) : Inv A D x todo (step A s t) := by
  unfold step
  cases ht : s.todo t with
  | nil => exact h
  | cons c cs =>
    have hat := h.at_ t c cs ht
    rcases access_spec hA h.dom hat with ⟨q, h1, h2⟩ | h1
    · simp only [h1]
      refine ⟨h.legal, h.dom, h.prog, ?_, ?_⟩
      · intro u d ds hu
        by_cases hut : u = t
        · subst hut
          rw [ht] at hu
          cases hu
          simpa [upd_self] using h2
        · simp only [upd_ne _ hut]
          exact h.at_ u d ds hu
      · intro u hu
        by_cases hut : u = t
        · subst hut
          rw [ht] at hu
          cases hu
        · simp only [upd_ne _ hut]
          exact h.idle u hu
    · simp only [h1]
      have hc : c ∈ todo t := by rw [← h.prog t, ht]; simp
      refine ⟨legal_snoc h.legal t c, hD t c hc _ h.dom, ?_, ?_, ?_⟩
      · intro u
        have hp := h.prog u
        simp only [finished] at hp ⊢
        by_cases hut : u = t
        · subst hut
          rw [ht] at hp
          rw [← hp]
          simp [upd_self]
        · have : (t == u) = false := by simpa using fun e : t = u => hut e.symm
          simp only [upd_ne _ hut, List.filter_append, List.filter_cons, this, List.filter_nil]
          simpa using hp
      · intro u d ds hu
        by_cases hut : u = t
        · subst hut
          simp only [upd_self]
          trivial
        · simp only [upd_ne _ hut] at hu ⊢
          exact h.at_ u d ds hu
      · intro u hu
        by_cases hut : u = t
        · subst hut; simp only [upd_self]
        · simp only [upd_ne _ hut] at hu ⊢
          exact h.idle u hu

theorem inv_run {A : Arith α} {D : α → Prop} (hA : Distinguishes A D) {x : α} (hx : D x)
    {todo : Nat → List (Call α)} (hD : ∀ t, ∀ c ∈ todo t, c.Stays A D) (l : List Nat) :
    Inv A D x todo (run A (init x todo) l) := by
  have h0 : Inv A D x todo (init x todo) :=
    ⟨rfl, hx, fun t => by simp [finished, init], fun _ _ _ _ => trivial, fun _ _ => rfl⟩
  unfold run
  generalize init x todo = s at h0
  induction l generalizing s with
  | nil => exact h0
  | cons t l ih => exact ih _ (inv_step hA hD h0 t)

/-- The final value is obtained by applying the finished calls one after the other. -/
theorem legal_foldl {A : Arith α} {x y : α} {l : List (Nat × Call α × α)} (h : Legal A x l y) :
    y = (l.map (·.2.1)).foldl (fun z c => c.apply A z) x := by
  induction l generalizing x with
  | nil => exact h
  | cons a l ih => exact ih h.2

theorem f32_distinguishes (add : BitVec 32 → BitVec 32 → BitVec 32) :
    Distinguishes (f32 add) fun b => b ≠ 0x80000000#32 := by
  constructor
  · intro a v ha h
    have : f32nan a = false := by
      rcases h with h | h <;> simp [f32] at h <;> simp [h]
    simp [f32, this]
  · intro a b v ha hb h hab
    have hb' : f32nan b = false := by
      rcases h with h | h <;> simp [f32] at h <;> simp [h]
    cases hna : f32nan a
    · simp only [f32, hna, hb', Bool.false_or, decide_eq_true_eq]
      intro hk
      apply hab
      have e1 : a.toNat ≠ 2 ^ 31 := fun e => ha (BitVec.eq_of_toNat_eq (by simpa using e))
      have e2 : b.toNat ≠ 2 ^ 31 := fun e => hb (BitVec.eq_of_toNat_eq (by simpa using e))
      apply BitVec.eq_of_toNat_eq
      unfold f32key at hk
      split at hk <;> split at hk <;> omega
    · simp [f32, hna]

theorem i32_ne (a b : BitVec 32) : i32.ne a b = true ↔ a ≠ b := by simp [i32]

theorem f32_lt_example {add : BitVec 32 → BitVec 32 → BitVec 32} :
    (f32 add).lt 0#32 0x3f800000#32 = true :=
  (by decide : (!f32nan 0#32 && !f32nan 0x3f800000#32 &&
    decide (f32key 0#32 < f32key 0x3f800000#32)) = true)

theorem f32_ne_example {add : BitVec 32 → BitVec 32 → BitVec 32} :
    (f32 add).ne 0x80000000#32 0#32 = false :=
  (by decide : (f32nan 0x80000000#32 || f32nan 0#32 ||
    decide (f32key 0x80000000#32 ≠ f32key 0#32)) = false)

theorem sum_range_bump (n k : Nat) (v : BitVec 32) (f : Nat → BitVec 32) :
    ((List.range n).map fun t => if t = k then v + f t else f t).sum =
      (if k < n then v else 0) + ((List.range n).map f).sum := by
  induction n with
  | zero => simp
  | succ n ih =>
    rw [List.range_succ, List.map_append, List.map_append, List.sum_append, List.sum_append, ih]
    by_cases hk : n = k
    · subst hk
      simp
      ac_rfl
    · by_cases h1 : k < n
      · simp [hk, h1, Nat.lt_succ_of_lt h1, BitVec.add_assoc]
      · have h2 : ¬ k < n + 1 := by omega
        simp [hk, h1, h2]

theorem sum_split (n : Nat) (order : List (Nat × BitVec 32)) (h : ∀ e ∈ order, e.1 < n) :
    (order.map (·.2)).sum =
      ((List.range n).map fun t => ((order.filter (·.1 == t)).map (·.2)).sum).sum := by
  induction order with
  | nil =>
    simp only [List.map_nil, List.filter_nil, List.sum_nil]
    induction n with
    | zero => rfl
    | succ n ih =>
      rw [List.range_succ, List.map_append, List.sum_append, ← ih (by simp)]
      rfl
  | cons e l ih =>
    have h1 := ih (fun e he => h e (List.mem_cons_of_mem _ he))
    have h2 := sum_range_bump n e.1 e.2 fun t => ((l.filter (·.1 == t)).map (·.2)).sum
    rw [if_pos (h e List.mem_cons_self), ← h1] at h2
    rw [List.map_cons, List.sum_cons, ← h2]
    congr 1
    apply List.map_congr_left
    intro t _
    by_cases ht : e.1 = t
    · simp [ht]
    · have ht' : ¬ t = e.1 := fun x => ht x.symm
      simp [ht, ht']

theorem add_order (x : BitVec 32) (args : Nat → List (BitVec 32)) (n : Nat)
    (hn : ∀ t, n ≤ t → args t = []) (order : List (Nat × Call (BitVec 32)))
    (h : ∀ t, (order.filter (·.1 == t)).map (·.2) = (args t).map .add) :
    order.foldl (fun z c => c.2.apply i32 z) x = x + ((List.range n).map fun t => (args t).sum).sum := by
  obtain ⟨o, rfl⟩ : ∃ o : List (Nat × BitVec 32), order = o.map fun e => (e.1, .add e.2) := by
    have hall : ∀ e ∈ order, ∃ v, e.2 = .add v := by
      intro e he
      have : e.2 ∈ (args e.1).map Call.add := by
        rw [← h e.1]
        exact List.mem_map.2 ⟨e, List.mem_filter.2 ⟨he, by simp⟩, rfl⟩
      obtain ⟨v, _, hv⟩ := List.mem_map.1 this
      exact ⟨v, hv.symm⟩
    clear h
    induction order with
    | nil => exact ⟨[], rfl⟩
    | cons e l ih =>
      obtain ⟨o, ho⟩ := ih fun e he => hall e (List.mem_cons_of_mem _ he)
      obtain ⟨v, hv⟩ := hall e List.mem_cons_self
      exact ⟨(e.1, v) :: o, by simp [← ho, ← hv]⟩
  have h' : ∀ t, (o.filter (·.1 == t)).map (·.2) = args t := by
    intro t
    have h1 := h t
    have hinj : Function.Injective (Call.add : BitVec 32 → Call (BitVec 32)) := by
      intro a b e; cases e; rfl
    have h2 : ((o.filter (·.1 == t)).map (·.2)).map Call.add = (args t).map Call.add := by
      rw [← h1, List.filter_map, List.map_map, List.map_map]
      rfl
    exact (List.map_inj_right (fun _ _ e => hinj e)).1 h2
  have hlt : ∀ e ∈ o, e.1 < n := by
    intro e he
    by_cases hlt : e.1 < n
    · exact hlt
    · exfalso
      have h1 := h' e.1
      rw [hn e.1 (by omega)] at h1
      have : e ∈ o.filter (·.1 == e.1) := List.mem_filter.2 ⟨he, by simp⟩
      have h2 := List.map_eq_nil_iff.1 h1
      rw [h2] at this
      cases this
  have hf : ∀ y : BitVec 32, (o.map fun e => ((e.1, .add e.2) : Nat × Call (BitVec 32))).foldl
      (fun z c => c.2.apply i32 z) y = y + (o.map (·.2)).sum := by
    clear h h' hlt
    induction o with
    | nil => simp
    | cons e l ih =>
      intro y
      rw [List.map_cons, List.foldl_cons, ih, List.map_cons, List.sum_cons]
      simp [Call.apply, i32, BitVec.add_assoc]
  rw [hf, sum_split n o hlt]
  congr 2
  apply List.map_congr_left
  intro t _
  rw [h']

end Verif.Atomics
