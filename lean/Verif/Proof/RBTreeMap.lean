import Verif.Spec.RBTree
import Verif.Proof.RBTreeIter

/-!
Helper lemmas for `RBTree`: from the tree to the abstract map.
-/
namespace Verif.RBTree

section
set_option linter.unusedSectionVars false

variable {K V : Type} {s : St K V} [LinearOrder K] {m m' : List (Nat × K × V)} {d : K → Option V}

/-- The map a list of entries stands for. -/
def Means (m : List (Nat × K × V)) (d : K → Option V) : Prop :=
  ∀ k v, (∃ p, (p, k, v) ∈ m) ↔ d k = some v

theorem Means.absent (h : Means m d) {k : K} : d k = none ↔ ∀ e ∈ m, e.2.1 ≠ k := by
  constructor
  · rintro e ⟨p, k', v⟩ he rfl
    have := (h k' v).1 ⟨p, he⟩
    rw [e] at this
    cases this
  · intro e
    cases hd : d k with
    | none => rfl
    | some v =>
      obtain ⟨p, hp⟩ := (h k v).2 hd
      exact absurd rfl (e _ hp)

theorem Means.put [Inhabited V] {replace next k v q next'} (h : Means m d)
    (hs : m'.Pairwise fun a b => a.2.1 < b.2.1)
    (hp : Put replace next k v m q m' next') :
    Means m' fun x => if x = k then some (if replace then v else (d k).getD v) else d x := by
  cases hp with
  | @old a _ v0 b =>
    intro k' v'
    have hk : d k = some v0 := (h k v0).1 ⟨q, by simp⟩
    have hs' := hs
    rw [List.pairwise_append, List.pairwise_cons] at hs
    by_cases e : k' = k
    · subst e
      simp only [if_true, Option.some.injEq]
      rw [hk, Option.getD_some]
      constructor
      · rintro ⟨p, hp⟩
        rcases List.mem_append.1 hp with hp | hp
        · exact absurd (hs.2.2 _ hp _ List.mem_cons_self) (lt_irrefl _)
        · rcases List.mem_cons.1 hp with hp | hp
          · cases hp; rfl
          · exact absurd (hs.2.1.1 _ hp) (lt_irrefl _)
      · rintro rfl
        exact ⟨q, by simp⟩
    · show _ ↔ (if k' = k then _ else _) = _
      rw [if_neg e, ← h]
      constructor
      · rintro ⟨p, hp⟩
        refine ⟨p, ?_⟩
        simp only [List.mem_append, List.mem_cons, Prod.mk.injEq, e, false_and, and_false, false_or] at hp ⊢
        exact hp
      · rintro ⟨p, hp⟩
        refine ⟨p, ?_⟩
        simp only [List.mem_append, List.mem_cons, Prod.mk.injEq, e, false_and, and_false, false_or] at hp ⊢
        exact hp
  | @new a b ha hb =>
    intro k' v'
    have hk : d k = none := h.absent.2 (by
      intro e he
      rcases List.mem_append.1 he with he | he
      · exact ne_of_lt (ha e he)
      · exact ne_of_gt (hb e he))
    by_cases e : k' = k
    · subst e
      simp only [if_true, Option.some.injEq, hk, Option.getD_none, ite_self]
      constructor
      · rintro ⟨p, hp⟩
        rcases List.mem_append.1 hp with hp | hp
        · exact absurd (ha _ hp) (lt_irrefl _)
        · rcases List.mem_cons.1 hp with hp | hp
          · cases hp; rfl
          · exact absurd (hb _ hp) (lt_irrefl _)
      · rintro rfl
        exact ⟨next, by simp⟩
    · show _ ↔ (if k' = k then _ else _) = _
      rw [if_neg e, ← h]
      constructor
      · rintro ⟨p, hp⟩
        refine ⟨p, ?_⟩
        simp only [List.mem_append, List.mem_cons, Prod.mk.injEq, e, false_and, and_false, false_or] at hp ⊢
        exact hp
      · rintro ⟨p, hp⟩
        refine ⟨p, ?_⟩
        simp only [List.mem_append, List.mem_cons, Prod.mk.injEq, e, false_and, and_false, false_or] at hp ⊢
        exact hp

theorem Means.filter (h : Means m d) (P : K → Prop) [DecidablePred P] :
    Means (m.filter fun e => decide (P e.2.1)) fun x => if P x then d x else none := by
  intro k v
  by_cases e : P k
  · show _ ↔ (if P k then _ else _) = _
    rw [if_pos e, ← h]
    simp [List.mem_filter, e]
  · simp [List.mem_filter, e]

theorem Rep.sorted (h : Rep s m) : m.Pairwise fun a b => a.2.1 < b.2.1 := by
  obtain ⟨t, h⟩ := h
  exact h.sorted

theorem Rep.size (h : Rep s m) : s.cnt = m.length := by
  obtain ⟨t, h⟩ := h
  exact h.cnt

/-- Cut a sorted list at a key. -/
theorem cut_at (k : K) : ∀ {m : List (Nat × K × V)}, (m.Pairwise fun a b => a.2.1 < b.2.1) →
    ∃ a b, m = a ++ b ∧ (∀ e ∈ a, e.2.1 < k) ∧ ∀ e ∈ b, k ≤ e.2.1 := by
  intro m
  induction m with
  | nil => intro _; exact ⟨[], [], by simp⟩
  | cons e m ih =>
    intro h
    rw [List.pairwise_cons] at h
    by_cases hk : e.2.1 < k
    · obtain ⟨a, b, rfl, ha, hb⟩ := ih h.2
      refine ⟨e :: a, b, rfl, ?_, hb⟩
      intro x hx
      rcases List.mem_cons.1 hx with rfl | hx
      · exact hk
      · exact ha x hx
    · refine ⟨[], e :: m, rfl, by simp, ?_⟩
      intro x hx
      rcases List.mem_cons.1 hx with rfl | hx
      · exact not_lt.1 hk
      · exact le_trans (not_lt.1 hk) (le_of_lt (h.1 x hx))

theorem eraseAt_header (Q : Nat → St K V → Prop) :
    Ok (eraseAt s.header) s Q ↔ Q s.header s := by
  unfold eraseAt endIt
  rw [ok_bind, ok_theHeader, if_pos (Or.inr rfl), ok_pure]

theorem exec_ok [Inhabited V] (h : Rep s m) (hd : Means m d) (op : Op K V) (hl : op.Legal) :
    Ok (exec op) s fun _ s' => s'.header = s.header ∧ ∃ m', Rep s' m' ∧ Means m' (op.apply d) := by
  cases op with
  | insert k v =>
    refine Ok.mono (insert_ok h k v) ?_
    rintro _ s' ⟨q, m', h1, h2, h3⟩
    refine ⟨h3, m', h1, ?_⟩
    simpa [Op.apply] using hd.put h1.sorted h2
  | assign k v =>
    refine Ok.mono (assign_ok h k v) ?_
    rintro _ s' ⟨q, m', h1, h2, h3⟩
    refine ⟨h3, m', h1, ?_⟩
    simpa [Op.apply] using hd.put h1.sorted h2
  | touch k =>
    unfold exec
    rw [ok_bind]
    refine Ok.mono (getOrDefault_ok h k) ?_
    rintro _ s' ⟨m', h1, h2, h3⟩
    rw [ok_pure]
    refine ⟨h3, m', h1, ?_⟩
    simpa [Op.apply] using hd.put h1.sorted h2
  | erase k =>
    unfold exec
    rw [ok_bind]
    refine Ok.mono (erase_ok h k) ?_
    rintro _ s' ⟨_, h1, h2, h3⟩
    rw [ok_pure]
    refine ⟨h2, _, h1, ?_⟩
    have := hd.filter fun x => x ≠ k
    simpa [Op.apply, ite_not] using this
  | eraseFrom k =>
    unfold exec
    rw [ok_bind, lowerBound_ok h, ok_bind]
    obtain ⟨a, b, rfl, ha, hb⟩ := cut_at k h.sorted
    rw [filter_cut (by simpa using ha) (by simpa using hb)]
    cases b with
    | nil =>
      rw [firstPtr_nil, eraseAt_header, ok_pure]
      refine ⟨rfl, a ++ [], h, ?_⟩
      have : (Op.eraseFrom k : Op K V).apply d = d := by
        funext x
        simp only [Op.apply]
        split
        · next e =>
          symm
          rw [hd.absent]
          rintro y hy rfl
          rw [List.append_nil] at hy
          exact absurd (ha y hy) (not_lt.2 e.1)
        · rfl
      rw [this]
      exact hd
    | cons e b =>
      obtain ⟨p, k', v'⟩ := e
      rw [firstPtr_cons]
      have hs := h.sorted
      rw [List.pairwise_append, List.pairwise_cons] at hs
      refine Ok.mono (eraseAt_ok h) ?_
      rintro _ s' ⟨_, h1, h2, h3⟩
      rw [ok_pure]
      refine ⟨h2, _, h1, ?_⟩
      have hf := hd.filter fun x => x ≠ k'
      have e1 : (a ++ (p, k', v') :: b).filter (fun e => decide (e.2.1 ≠ k')) = a ++ b := filter_split h.sorted
      rw [e1] at hf
      have : (Op.eraseFrom k : Op K V).apply d = fun x => if x ≠ k' then d x else none := by
        funext x
        simp only [Op.apply]
        by_cases e : x = k'
        · subst e
          rw [if_pos, if_neg (by simp)]
          refine ⟨hb _ List.mem_cons_self, ?_⟩
          intro y hy hy'
          by_contra hc
          apply hy'
          rw [hd.absent]
          rintro z hz rfl
          rcases List.mem_append.1 hz with hz | hz
          · exact absurd (ha z hz) (not_lt.2 hy)
          · rcases List.mem_cons.1 hz with rfl | hz
            · exact hc (le_refl _)
            · exact hc (le_of_lt (hs.2.1.1 z hz))
        · rw [if_pos e]
          split
          · next h5 =>
            symm
            rw [hd.absent]
            rintro z hz rfl
            have hk' : d k' ≠ none := by
              rw [(hd k' v').1 ⟨p, by simp⟩]
              simp
            have h6 := h5.2 k' (hb _ List.mem_cons_self) hk'
            rcases List.mem_append.1 hz with hz | hz
            · exact absurd (ha z hz) (not_lt.2 h5.1)
            · rcases List.mem_cons.1 hz with rfl | hz
              · exact e rfl
              · exact absurd (hs.2.1.1 z hz) (not_lt.2 h6)
          · rfl
      rw [this]
      exact hf
  | eraseBetween lo hi =>
    unfold exec
    rw [ok_bind, lowerBound_ok h, ok_bind, lowerBound_ok h, ok_bind]
    obtain ⟨a, bc, rfl, ha, hb⟩ := cut_at lo h.sorted
    have hs := h.sorted
    rw [List.pairwise_append] at hs
    obtain ⟨b, c, rfl, hb', hc⟩ := cut_at hi hs.2.1
    rw [filter_cut (by simpa using ha) (by simpa using hb)]
    rw [← List.append_assoc]
    have hl' : lo ≤ hi := hl
    have hab : ∀ e ∈ a ++ b, e.2.1 < hi := by
      intro e he
      rcases List.mem_append.1 he with he | he
      · exact lt_of_lt_of_le (ha e he) hl'
      · exact hb' e he
    rw [filter_cut (by simpa using hab) (by simpa using hc)]
    rw [← List.append_assoc] at h hd
    refine Ok.mono (eraseRange_ok h) ?_
    rintro _ s' ⟨_, h1, h2, h3⟩
    rw [ok_pure]
    refine ⟨h2, _, h1, ?_⟩
    have hf := hd.filter fun x => ¬ (lo ≤ x ∧ x < hi)
    have e1 : (a ++ b ++ c).filter (fun e => decide (¬ (lo ≤ e.2.1 ∧ e.2.1 < hi))) = a ++ c := by
      rw [List.filter_append, List.filter_append, List.filter_eq_self.2, List.filter_eq_nil_iff.2,
        List.filter_eq_self.2, List.append_nil]
      · intro e he
        simpa using Or.inr (hc e he)
      · intro e he
        simpa using ⟨hb e (by simp [he]), hb' e he⟩
      · intro e he
        simpa using Or.inl (ha e he)
    rw [e1] at hf
    simpa only [Op.apply, ite_not] using hf
  | clear =>
    refine Ok.mono h.clear ?_
    rintro _ s' ⟨h1, h2, h3⟩
    exact ⟨h2, [], h1, by simp [Means, Op.apply]⟩

theorem execAll_ok [Inhabited V] : ∀ (ops : List (Op K V)) {s m d}, Rep s m → Means m d → (∀ op ∈ ops, op.Legal) →
    Ok (execAll ops) s fun _ s' => ∃ m', Rep s' m' ∧ Means m' (applyAll d ops) := by
  intro ops
  induction ops with
  | nil =>
    intro s m d h hd _
    unfold execAll
    rw [ok_pure]
    exact ⟨m, h, hd⟩
  | cons op ops ih =>
    intro s m d h hd hl
    unfold execAll
    rw [ok_bind]
    refine Ok.mono (exec_ok h hd op (hl op (by simp))) ?_
    rintro _ s' ⟨_, m', h1, h2⟩
    exact ih h1 h2 fun o ho => hl o (by simp [ho])

theorem construct_rep [Inhabited K] [Inhabited V] : Rep (construct : St K V) [] := by
  refine ⟨.nil, ?_⟩
  refine ⟨⟨?_, ?_, ?_, ?_, ?_, ?_, ?_⟩, rfl, ⟨0, .nil, .nil⟩, ?_, .nil, rfl⟩
  · simp [construct]
  · exact ⟨default, default, rfl⟩
  · rfl
  · trivial
  · trivial
  · intro x
    simp [construct]
  · intro x
    simp [construct]
    try omega
  · simp [topBlack]

theorem Reached.rep [Inhabited K] [Inhabited V] {s : St K V} {d} (h : Reached s d) : ∃ m, Rep s m ∧ Means m d := by
  obtain ⟨ops, hl, he, rfl⟩ := h
  obtain ⟨u, s', e, m, h1, h2⟩ := execAll_ok ops construct_rep (d := fun _ => none) (by simp [Means]) hl
  rw [he] at e
  cases e
  exact ⟨m, h1, h2⟩

theorem walk_ok : ∀ (n : Nat) {a b : List (Nat × K × V)}, Rep s (a ++ b) → b.length < n →
    ∀ Q, Ok (walk n (firstPtr s.header b)) s Q ↔ Q b s := by
  intro n
  induction n with
  | zero => intro _ _ _ h; omega
  | succ n ih =>
    intro a b h hn Q
    unfold walk endIt
    rw [ok_bind, ok_theHeader]
    cases b with
    | nil => rw [firstPtr_nil, if_pos rfl, ok_pure]
    | cons e b =>
      obtain ⟨p, k, v⟩ := e
      have hp := h.ptrs
      simp only [List.map_append, List.map_cons, List.nodup_cons, List.mem_append, List.mem_cons, List.nodup_append] at hp
      have hne : p ≠ s.header := by grind
      rw [firstPtr_cons, if_neg hne, ok_bind, h.deref (k := k) (v := v) (by simp), ok_bind, h.incr, ok_bind]
      rw [ih (a := a ++ [(p, k, v)]) (by simpa using h) (by simp at hn; omega), ok_pure]

theorem rwalk_ok : ∀ (n : Nat) {a b : List (Nat × K × V)}, Rep s (a.reverse ++ b) → a.length < n →
    ∀ Q, Ok (rwalk n (lastPtr s.header a.reverse)) s Q ↔ Q a s := by
  intro n
  induction n with
  | zero => intro _ _ _ h; omega
  | succ n ih =>
    intro a b h hn Q
    unfold rwalk endIt
    rw [ok_bind, ok_theHeader]
    cases a with
    | nil => rw [List.reverse_nil, if_pos (by rfl), ok_pure]
    | cons e a =>
      obtain ⟨p, k, v⟩ := e
      rw [List.reverse_cons] at h ⊢
      have hp := h.ptrs
      simp only [List.map_append, List.map_cons, List.nodup_cons, List.mem_append, List.mem_cons, List.nodup_append] at hp
      have hne : p ≠ s.header := by grind
      have hl : lastPtr s.header (a.reverse ++ [(p, k, v)]) = p := by simp [lastPtr]
      rw [hl, if_neg hne, ok_bind, h.deref (k := k) (v := v) (by simp), ok_bind]
      rw [List.append_assoc, List.singleton_append] at h
      rw [h.rincr, ok_bind, ih h (by simp at hn; omega), ok_pure]

theorem Ok.eq {α : Type} {x : M K V α} {a : α} {t : St K V} (h : Ok x s fun b s' => b = a ∧ s' = t) :
    x s = some (a, t) := by
  obtain ⟨b, s', e, rfl, rfl⟩ := h
  exact e

theorem Rep.iter {n : Nat} (h : Rep s m) (hn : m.length < n) : iterate n s = some (m, s) := by
  apply Ok.eq
  unfold iterate
  have := walk_ok n (a := []) h hn
  rw [ok_bind, h.begin, this]
  exact ⟨rfl, rfl⟩

theorem run_bind {α β : Type} (x : M K V α) (f : α → M K V β) (s : St K V) :
    (x >>= f) s = match x s with | Option.none => Option.none | some (a, s') => f a s' := rfl

theorem run_pure {α : Type} (a : α) (s : St K V) : (pure a : M K V α) s = some (a, s) := rfl

theorem execAll_append [Inhabited V] (op : Op K V) {s s' : St K V} (e : exec op s = some ((), s')) :
    ∀ (ops : List (Op K V)) (t : St K V), execAll ops t = some ((), s) →
      execAll (ops ++ [op]) t = some ((), s') := by
  intro ops
  induction ops with
  | nil =>
    intro t ht
    cases ht
    simp only [List.nil_append, execAll, run_bind, e, run_pure]
  | cons o ops ih =>
    intro t ht
    rw [List.cons_append]
    unfold execAll at ht ⊢
    rw [run_bind] at ht ⊢
    cases hx : exec o t with
    | none => rw [hx] at ht; cases ht
    | some q =>
      rw [hx] at ht
      exact ih _ ht

theorem balanced_of {par : Nat} {t : T K V} {n : Nat} (h : RB t n) (ht : Tr s.heap par t) :
    Balanced s.heap t.ptr t.isRed n := by
  induction h generalizing par with
  | nil => exact .null
  | red a b c d h1 h2 =>
    obtain ⟨t1, t2, t3⟩ := ht
    refine .red t1 rfl ?_ ?_
    · have := h1 t2
      rwa [c] at this
    · have := h2 t3
      rwa [d] at this
  | black a b h1 h2 =>
    obtain ⟨t1, t2, t3⟩ := ht
    exact .black t1 rfl (h1 t2) (h2 t3)

end

end Verif.RBTree
