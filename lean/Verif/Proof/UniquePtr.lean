import Verif.Spec.UniquePtr
/-! Helper lemmas for `UniquePtr`. -/
namespace Verif.UniquePtr

theorem upd_self {β : Type} (f : Nat → β) (i : Nat) (x : β) : upd f i x i = x := by simp [upd]
theorem upd_ne {β : Type} (f : Nat → β) {i j : Nat} (h : j ≠ i) (x : β) : upd f i x j = f j := by
  simp [upd, h]

theorem relocate_ne {pl : Nat → Place} {i : Nat} {f : Nat → Place} {o : Nat}
    (h : ∀ d, pl o ≠ .ptr i d) : relocate pl i f o = pl o := by
  unfold relocate
  cases hp : pl o with
  | ptr k d =>
    by_cases hk : k = i
    · exact absurd (hk ▸ hp) (h d)
    · simp [hk]
  | client => rfl
  | deleted d => rfl

theorem relocate_eq {pl : Nat → Place} {i : Nat} {f : Nat → Place} {o d : Nat}
    (h : pl o = .ptr i d) : relocate pl i f o = f d := by
  simp [relocate, h]

/-- The object held by a living pointer, as far as its place is concerned. -/
theorem place_of {s : St} {a : Abs} (h : Shows s a) {i : Nat} {u : Ptr} (hu : s.obj i = some u) :
    (∀ o d, o < a.num → a.place o = .ptr i d → u.p = some o ∧ d = u.del) := by
  intro o d ho hp
  have := (h.held i d o).2 ⟨ho, hp⟩
  rw [hu] at this
  simp at this
  rw [this]
  exact ⟨rfl, rfl⟩

/-- Deleting what pointer `i` holds. -/
theorem delOpt_spec {s : St} {a : Abs} (h : Shows s a) {i : Nat} {u : Ptr} (hu : s.obj i = some u)
    (t : St) (hn : t.next = s.next) (hd : t.deleted = s.deleted) :
    ∃ t', delOpt u.del u.p t = some t' ∧ t'.next = t.next ∧ t'.raw = t.raw ∧ t'.obj = t.obj ∧
      (t'.deleted.map (·.1)).Nodup ∧
      ∀ o d, (o, d) ∈ t'.deleted ↔ o < a.num ∧ relocate a.place i .deleted o = .deleted d := by
  obtain ⟨dl, p⟩ := u
  cases p with
  | none =>
    refine ⟨t, rfl, rfl, rfl, rfl, by rw [hd]; exact h.once, ?_⟩
    intro o d
    rw [hd, h.deleted]
    refine and_congr_right fun ho => ?_
    rw [relocate_ne]
    intro d' hp
    have := (place_of h hu o d' ho hp).1
    cases this
  | some q =>
    obtain ⟨hq, hpl⟩ := (h.held i dl q).1 hu
    have hnew : q ∉ t.deleted.map (·.1) := by
      rw [hd]
      intro hin
      obtain ⟨⟨o, d⟩, h1, rfl⟩ := List.mem_map.1 hin
      have := ((h.deleted o d).1 h1).2
      rw [hpl] at this
      cases this
    have hlt : q < t.next := by rw [hn, h.num]; exact hq
    refine ⟨{ t with deleted := (q, dl) :: t.deleted }, by simp only [delOpt, del, if_pos (And.intro hlt hnew)],
      rfl, rfl, rfl, ?_, ?_⟩
    · simp only [List.map_cons, List.nodup_cons]
      exact ⟨hnew, by rw [hd]; exact h.once⟩
    · intro o d
      simp only [List.mem_cons, Prod.mk.injEq]
      by_cases ho : o = q
      · subst ho
        rw [relocate_eq hpl]
        constructor
        · rintro (⟨-, rfl⟩ | h1)
          · exact ⟨hq, rfl⟩
          · exact absurd (List.mem_map.2 ⟨_, h1, rfl⟩) hnew
        · rintro ⟨-, h1⟩
          cases h1
          exact Or.inl ⟨rfl, rfl⟩
      · rw [hd, h.deleted]
        constructor
        · rintro (⟨rfl, -⟩ | ⟨h1, h2⟩)
          · exact absurd rfl ho
          · refine ⟨h1, ?_⟩
            rw [relocate_ne (by intro d'; rw [h2]; exact fun e => by cases e)]
            exact h2
        · rintro ⟨h1, h2⟩
          refine Or.inr ⟨h1, ?_⟩
          rw [relocate_ne] at h2
          · exact h2
          · intro d' hp
            have := (place_of h hu o d' h1 hp).1
            simp at this
            exact ho this.symm

theorem live {s : St} {a : Abs} (h : Shows s a) {i d : Nat} (ha : a.ptrs i = some d) :
    ∃ p, s.obj i = some ⟨d, p⟩ := by
  have := h.alive i
  rw [ha] at this
  obtain ⟨⟨d', p⟩, h1, h2⟩ := Option.map_eq_some_iff.1 this
  simp at h2
  subst h2
  exact ⟨p, h1⟩

theorem dead {s : St} {a : Abs} (h : Shows s a) {i : Nat} (ha : a.ptrs i = none) : s.obj i = none := by
  have := h.alive i
  rw [ha] at this
  simpa using this

theorem no_place_dead {s : St} {a : Abs} (h : Shows s a) {i o d : Nat} (hi : s.obj i = none)
    (ho : o < a.num) : a.place o ≠ .ptr i d := by
  intro hp
  have := (h.held i d o).2 ⟨ho, hp⟩
  rw [hi] at this
  cases this

theorem not_held {s : St} {a : Abs} (h : Shows s a) {i d o : Nat} {p : Option Nat}
    (hi : s.obj i = some ⟨d, p⟩) (ho : o < a.num) {d' : Nat} (hp : a.place o = .ptr i d') :
    p = some o ∧ d' = d := place_of h hi o d' ho hp

theorem ctor_spec {s : St} {a : Abs} (h : Shows s a) {i : Nat} (d : Nat) {p : Option Nat}
    (ha : a.ptrs i = none) (hm : Mine a p) :
    ∃ s', ctor i d p s = some s' ∧
      Shows s' ⟨a.num, give a.place i d p, upd a.ptrs i (some d)⟩ := by
  have hi := dead h ha
  refine ⟨{ setObj s i (some ⟨d, p⟩) with raw := s.raw.filter fun q => some q ≠ p },
    by simp only [ctor, hi], h.num, ?_, ?_, ?_, ?_, h.once⟩
  · intro k
    by_cases hk : k = i
    · subst hk; simp [setObj, upd_self]
    · simp only [setObj, upd_ne _ hk]; exact h.alive k
  · intro k d' o
    by_cases hk : k = i
    · subst hk
      simp only [setObj, upd_self, give]
      constructor
      · intro e
        simp at e
        obtain ⟨rfl, rfl⟩ := e
        exact ⟨(hm o rfl).1, by simp⟩
      · rintro ⟨ho, hp⟩
        by_cases hop : some o = p
        · rw [if_pos hop] at hp
          cases hp
          rw [hop]
        · rw [if_neg hop] at hp
          exact absurd hp (no_place_dead h hi ho)
    · simp only [setObj, upd_ne _ hk, give]
      rw [h.held]
      refine and_congr_right fun ho => ?_
      by_cases hop : some o = p
      · rw [if_pos hop, (hm o hop.symm).2]
        constructor
        · intro e; cases e
        · intro e; cases e; exact absurd rfl hk
      · rw [if_neg hop]
  · intro o
    simp only [setObj, List.mem_filter, h.client, give, decide_eq_true_eq]
    constructor
    · rintro ⟨⟨ho, hp⟩, hne⟩
      exact ⟨ho, by rw [if_neg hne]; exact hp⟩
    · rintro ⟨ho, hp⟩
      by_cases hop : some o = p
      · rw [if_pos hop] at hp; cases hp
      · rw [if_neg hop] at hp
        exact ⟨⟨ho, hp⟩, hop⟩
  · intro o d'
    simp only [setObj, give]
    rw [h.deleted]
    refine and_congr_right fun ho => ?_
    by_cases hop : some o = p
    · rw [if_pos hop, (hm o hop.symm).2]
      constructor <;> intro e <;> cases e
    · rw [if_neg hop]

theorem dtor_spec {s : St} {a : Abs} (h : Shows s a) {i d : Nat} (ha : a.ptrs i = some d) :
    ∃ s', dtor i s = some s' ∧
      Shows s' ⟨a.num, relocate a.place i .deleted, upd a.ptrs i none⟩ := by
  obtain ⟨p, hi⟩ := live h ha
  obtain ⟨t, t1, t2, t3, t4, t5, t6⟩ := delOpt_spec h hi s rfl rfl
  refine ⟨setObj t i none, by simp only [dtor, hi, t1, Option.bind_eq_bind, Option.bind_some]; rfl,
    by rw [← h.num, ← t2]; rfl, ?_, ?_, ?_, t6, t5⟩
  · intro k
    by_cases hk : k = i
    · subst hk; simp [setObj, upd_self]
    · simp only [setObj, upd_ne _ hk, t4]; exact h.alive k
  · intro k d' o
    by_cases hk : k = i
    · subst hk
      simp only [setObj, upd_self]
      constructor
      · intro e; cases e
      · rintro ⟨ho, hp⟩
        by_cases hx : ∃ e, a.place o = .ptr k e
        · obtain ⟨e, he⟩ := hx
          rw [relocate_eq he] at hp
          cases hp
        · rw [relocate_ne (fun e he => hx ⟨e, he⟩)] at hp
          exact absurd ⟨d', hp⟩ hx
    · simp only [setObj, upd_ne _ hk, t4]
      rw [h.held]
      refine and_congr_right fun ho => ?_
      by_cases hx : ∃ e, a.place o = .ptr i e
      · obtain ⟨e, he⟩ := hx
        rw [relocate_eq he, he]
        constructor
        · intro e'; cases e'; exact absurd rfl hk
        · intro e'; cases e'
      · rw [relocate_ne (fun e he => hx ⟨e, he⟩)]
  · intro o
    simp only [setObj, t3, h.client]
    refine and_congr_right fun ho => ?_
    by_cases hx : ∃ e, a.place o = .ptr i e
    · obtain ⟨e, he⟩ := hx
      rw [relocate_eq he, he]
      constructor <;> intro e' <;> cases e'
    · rw [relocate_ne (fun e he => hx ⟨e, he⟩)]

theorem reset_spec {s : St} {a : Abs} (h : Shows s a) {i d : Nat} {p : Option Nat}
    (ha : a.ptrs i = some d) (hm : Mine a p) :
    ∃ s', reset i p s = some s' ∧
      Shows s' ⟨a.num, give (relocate a.place i .deleted) i d p, a.ptrs⟩ := by
  obtain ⟨q, hi⟩ := live h ha
  obtain ⟨t, t1, t2, t3, t4, t5, t6⟩ := delOpt_spec h hi (setObj s i (some ⟨d, p⟩)) rfl rfl
  refine ⟨{ t with raw := t.raw.filter fun q => some q ≠ p },
    by simp only [reset, hi, t1, Option.bind_eq_bind, Option.bind_some]; rfl,
    by rw [← h.num]; exact t2, ?_, ?_, ?_, ?_, t5⟩
  · intro k
    simp only [t4]
    by_cases hk : k = i
    · subst hk; simp [setObj, upd_self, ha]
    · simp only [setObj, upd_ne _ hk]; exact h.alive k
  · intro k d' o
    simp only [t4]
    by_cases hk : k = i
    · subst hk
      simp only [setObj, upd_self, give]
      constructor
      · intro e
        simp at e
        obtain ⟨rfl, rfl⟩ := e
        exact ⟨(hm o rfl).1, by simp⟩
      · rintro ⟨ho, hp⟩
        by_cases hop : some o = p
        · rw [if_pos hop] at hp
          cases hp
          rw [hop]
        · rw [if_neg hop] at hp
          by_cases hx : ∃ e, a.place o = .ptr k e
          · obtain ⟨e, he⟩ := hx
            rw [relocate_eq he] at hp
            cases hp
          · rw [relocate_ne (fun e he => hx ⟨e, he⟩)] at hp
            exact absurd ⟨d', hp⟩ hx
    · simp only [setObj, upd_ne _ hk, give]
      rw [h.held]
      refine and_congr_right fun ho => ?_
      by_cases hop : some o = p
      · rw [if_pos hop, (hm o hop.symm).2]
        constructor
        · intro e; cases e
        · intro e; cases e; exact absurd rfl hk
      · rw [if_neg hop]
        by_cases hx : ∃ e, a.place o = .ptr i e
        · obtain ⟨e, he⟩ := hx
          rw [relocate_eq he, he]
          constructor
          · intro e'; cases e'; exact absurd rfl hk
          · intro e'; cases e'
        · rw [relocate_ne (fun e he => hx ⟨e, he⟩)]
  · intro o
    simp only [List.mem_filter, t3, setObj, h.client, give, decide_eq_true_eq]
    by_cases hop : some o = p
    · rw [if_pos hop]
      constructor
      · rintro ⟨-, hne⟩; exact absurd hop hne
      · rintro ⟨-, e⟩; cases e
    · rw [if_neg hop]
      simp only [ne_eq, hop, not_false_eq_true, and_true]
      refine and_congr_right fun ho => ?_
      by_cases hx : ∃ e, a.place o = .ptr i e
      · obtain ⟨e, he⟩ := hx
        rw [relocate_eq he, he]
        constructor <;> intro e' <;> cases e'
      · rw [relocate_ne (fun e he => hx ⟨e, he⟩)]
  · intro o d'
    simp only [give]
    rw [t6]
    refine and_congr_right fun ho => ?_
    by_cases hop : some o = p
    · rw [if_pos hop, relocate_ne (by intro e; rw [(hm o hop.symm).2]; exact fun e => by cases e),
        (hm o hop.symm).2]
      constructor <;> intro e <;> cases e
    · rw [if_neg hop]

theorem release_spec {s : St} {a : Abs} (h : Shows s a) {i d : Nat} (ha : a.ptrs i = some d) :
    ∃ p s', release i s = some (p, s') ∧ s.obj i = some ⟨d, p⟩ ∧
      Shows s' ⟨a.num, relocate a.place i fun _ => .client, a.ptrs⟩ := by
  obtain ⟨p, hi⟩ := live h ha
  refine ⟨p, { setObj s i (some ⟨d, none⟩) with raw := p.toList ++ s.raw },
    by simp only [release, hi, Option.bind_eq_bind, Option.bind_some]; rfl, hi, h.num,
    ?_, ?_, ?_, ?_, h.once⟩
  · intro k
    by_cases hk : k = i
    · subst hk; simp [setObj, upd_self, ha]
    · simp only [setObj, upd_ne _ hk]; exact h.alive k
  · intro k d' o
    by_cases hk : k = i
    · subst hk
      simp only [setObj, upd_self]
      constructor
      · intro e; simp at e
      · rintro ⟨ho, hp⟩
        by_cases hx : ∃ e, a.place o = .ptr k e
        · obtain ⟨e, he⟩ := hx
          rw [relocate_eq he] at hp
          cases hp
        · rw [relocate_ne (fun e he => hx ⟨e, he⟩)] at hp
          exact absurd ⟨d', hp⟩ hx
    · simp only [setObj, upd_ne _ hk]
      rw [h.held]
      refine and_congr_right fun ho => ?_
      by_cases hx : ∃ e, a.place o = .ptr i e
      · obtain ⟨e, he⟩ := hx
        rw [relocate_eq he, he]
        constructor
        · intro e'; cases e'; exact absurd rfl hk
        · intro e'; cases e'
      · rw [relocate_ne (fun e he => hx ⟨e, he⟩)]
  · intro o
    simp only [setObj, List.mem_append, Option.mem_toList, h.client]
    constructor
    · rintro (hp | ⟨ho, hp⟩)
      · have hp : p = some o := hp
        subst hp
        obtain ⟨ho, hpl⟩ := (h.held i d o).1 hi
        exact ⟨ho, by rw [relocate_eq hpl]⟩
      · exact ⟨ho, by rw [relocate_ne (by intro e; rw [hp]; exact fun e => by cases e)]; exact hp⟩
    · rintro ⟨ho, hp⟩
      by_cases hx : ∃ e, a.place o = .ptr i e
      · obtain ⟨e, he⟩ := hx
        exact Or.inl (not_held h hi ho he).1
      · rw [relocate_ne (fun e he => hx ⟨e, he⟩)] at hp
        exact Or.inr ⟨ho, hp⟩
  · intro o d'
    simp only [setObj]
    rw [h.deleted]
    refine and_congr_right fun ho => ?_
    by_cases hx : ∃ e, a.place o = .ptr i e
    · obtain ⟨e, he⟩ := hx
      rw [relocate_eq he, he]
      constructor <;> intro e' <;> cases e'
    · rw [relocate_ne (fun e he => hx ⟨e, he⟩)]

/-- The pointer released is the client's. -/
theorem release_mine {s : St} {a : Abs} (h : Shows s a) {i d : Nat} {p : Option Nat}
    (hi : s.obj i = some ⟨d, p⟩) :
    Mine ⟨a.num, relocate a.place i fun _ => .client, a.ptrs⟩ p := by
  rintro o rfl
  obtain ⟨ho, hp⟩ := (h.held i d o).1 hi
  exact ⟨ho, by simp only [relocate_eq hp]⟩

/-- Abstract states that agree on the objects in existence are interchangeable. -/
theorem shows_congr {s : St} {a b : Abs} (h : Shows s a) (hn : a.num = b.num)
    (hp : ∀ o, o < a.num → a.place o = b.place o) (hq : a.ptrs = b.ptrs) : Shows s b := by
  refine ⟨h.num.trans hn, by rw [← hq]; exact h.alive, ?_, ?_, ?_, h.once⟩
  · intro i d o
    rw [h.held, ← hn]
    exact and_congr_right fun ho => by rw [hp o ho]
  · intro o
    rw [h.client, ← hn]
    exact and_congr_right fun ho => by rw [hp o ho]
  · intro o d
    rw [h.deleted, ← hn]
    exact and_congr_right fun ho => by rw [hp o ho]

theorem moveCtor_spec {s : St} {a : Abs} (h : Shows s a) {i j d : Nat} (hi : a.ptrs i = none)
    (hj : a.ptrs j = some d) : ∃ s', moveCtor i j s = some s' ∧
      Shows s' ⟨a.num, relocate a.place j fun d => .ptr i d, upd a.ptrs i (some d)⟩ := by
  obtain ⟨p, t, t1, t2, t3⟩ := release_spec h hj
  obtain ⟨s', c1, c2⟩ := ctor_spec t3 d (p := p) hi (release_mine h t2)
  have hti : t.obj i = none := dead t3 hi
  refine ⟨s', ?_, shows_congr c2 rfl ?_ rfl⟩
  · simp only [ctor, hti] at c1
    simp only [moveCtor, dead h hi, t2, t1, Option.bind_eq_bind, Option.bind_some]
    exact c1
  · intro o ho
    simp only [give]
    by_cases hop : some o = p
    · rw [if_pos hop]
      subst hop
      rw [relocate_eq ((h.held j d o).1 t2).2]
    · rw [if_neg hop]
      have : ∀ e, a.place o ≠ .ptr j e := fun e he => hop (not_held h t2 ho he).1.symm
      rw [relocate_ne this, relocate_ne this]

/-- Replacing the deleter of pointer `i`. -/
theorem redel_spec {s : St} {a : Abs} (h : Shows s a) {i d d' : Nat} {p : Option Nat}
    (hi : s.obj i = some ⟨d, p⟩) :
    Shows (setObj s i (some ⟨d', p⟩))
      ⟨a.num, relocate a.place i fun _ => .ptr i d', upd a.ptrs i (some d')⟩ := by
  refine ⟨h.num, ?_, ?_, ?_, ?_, h.once⟩
  · intro k
    by_cases hk : k = i
    · subst hk; simp [setObj, upd_self]
    · simp only [setObj, upd_ne _ hk]; exact h.alive k
  · intro k e o
    by_cases hk : k = i
    · subst hk
      simp only [setObj, upd_self]
      constructor
      · intro he
        simp at he
        obtain ⟨rfl, rfl⟩ := he
        obtain ⟨ho, hp⟩ := (h.held k d o).1 hi
        exact ⟨ho, by rw [relocate_eq hp]⟩
      · rintro ⟨ho, hp⟩
        by_cases hx : ∃ e, a.place o = .ptr k e
        · obtain ⟨e', he'⟩ := hx
          rw [relocate_eq he'] at hp
          cases hp
          rw [(not_held h hi ho he').1]
        · rw [relocate_ne (fun e he => hx ⟨e, he⟩)] at hp
          exact absurd ⟨e, hp⟩ hx
    · simp only [setObj, upd_ne _ hk]
      rw [h.held]
      refine and_congr_right fun ho => ?_
      by_cases hx : ∃ e, a.place o = .ptr i e
      · obtain ⟨e', he'⟩ := hx
        rw [relocate_eq he', he']
        constructor
        · intro e; cases e; exact absurd rfl hk
        · intro e; cases e; exact absurd rfl hk
      · rw [relocate_ne (fun e he => hx ⟨e, he⟩)]
  · intro o
    simp only [setObj, h.client]
    refine and_congr_right fun ho => ?_
    by_cases hx : ∃ e, a.place o = .ptr i e
    · obtain ⟨e, he⟩ := hx
      rw [relocate_eq he, he]
      constructor <;> intro e' <;> cases e'
    · rw [relocate_ne (fun e he => hx ⟨e, he⟩)]
  · intro o e
    simp only [setObj]
    rw [h.deleted]
    refine and_congr_right fun ho => ?_
    by_cases hx : ∃ e, a.place o = .ptr i e
    · obtain ⟨e, he⟩ := hx
      rw [relocate_eq he, he]
      constructor <;> intro e' <;> cases e'
    · rw [relocate_ne (fun e he => hx ⟨e, he⟩)]

/-- Move assignment, before simplification of the resulting places. -/
theorem moveAssign_raw {s : St} {a : Abs} (h : Shows s a) {i j d d' : Nat} (hi : a.ptrs i = some d)
    (hj : a.ptrs j = some d') : ∃ p s', moveAssign i j s = some s' ∧ s.obj j = some ⟨d', p⟩ ∧
      Shows s' ⟨a.num, relocate (give (relocate (relocate a.place j fun _ => .client) i .deleted) i d p)
        i fun _ => .ptr i d', upd a.ptrs i (some d')⟩ := by
  obtain ⟨p, t, t1, t2, t3⟩ := release_spec h hj
  obtain ⟨r, r1, r2⟩ := reset_spec t3 (p := p) hi (release_mine h t2)
  obtain ⟨q, hq⟩ := live r2 hi
  obtain ⟨q', hq'⟩ := live r2 hj
  refine ⟨p, setObj r i (some ⟨d', q⟩), ?_, t2, redel_spec r2 hq⟩
  simp only [moveAssign, t1, r1, hq, hq', Option.bind_eq_bind, Option.bind_some]
  rfl

theorem moveAssign_spec {s : St} {a : Abs} (h : Shows s a) {i j d d' : Nat} (hi : a.ptrs i = some d)
    (hj : a.ptrs j = some d') (hij : i ≠ j) : ∃ s', moveAssign i j s = some s' ∧
      Shows s' ⟨a.num, relocate (relocate a.place i .deleted) j fun d => .ptr i d,
        upd a.ptrs i (some d')⟩ := by
  obtain ⟨p, s', h1, h2, h3⟩ := moveAssign_raw h hi hj
  refine ⟨s', h1, shows_congr h3 rfl ?_ rfl⟩
  intro o ho
  simp only at ho ⊢
  by_cases hop : some o = p
  · subst hop
    have hpl := ((h.held j d' o).1 h2).2
    rw [relocate_eq (d := d) (by simp [give])]
    rw [relocate_eq (i := j) (d := d')]
    rw [relocate_ne (by intro e; rw [hpl]; intro e'; cases e'; exact hij rfl)]
    exact hpl
  · have hnj : ∀ e, a.place o ≠ .ptr j e := fun e he => hop (not_held h h2 ho he).1.symm
    by_cases hx : ∃ e, a.place o = .ptr i e
    · obtain ⟨e, he⟩ := hx
      rw [relocate_ne (i := i), give, if_neg hop, relocate_eq (d := e) (by rw [relocate_ne hnj]; exact he),
        relocate_ne (i := j), relocate_eq he]
      · intro e'; rw [relocate_eq he]; intro e''; cases e''
      · intro e'
        rw [give, if_neg hop, relocate_eq (d := e) (by rw [relocate_ne hnj]; exact he)]
        intro e''; cases e''
    · have hni : ∀ e, a.place o ≠ .ptr i e := fun e he => hx ⟨e, he⟩
      have e1 : relocate a.place j (fun _ => .client) o = a.place o := relocate_ne hnj
      have e2 : relocate (relocate a.place j fun _ => .client) i .deleted o = a.place o := by
        rw [relocate_ne (by rw [e1]; exact hni), e1]
      have e3 : relocate a.place i .deleted o = a.place o := relocate_ne hni
      have e4 : give (relocate (relocate a.place j fun _ => .client) i .deleted) i d p o = a.place o := by
        rw [give, if_neg hop, e2]
      rw [relocate_ne (by rw [e4]; exact hni), e4, relocate_ne (by rw [e3]; exact hnj), e3]

theorem selfMove_spec {s : St} {a : Abs} (h : Shows s a) {i d : Nat} (hi : a.ptrs i = some d) :
    ∃ s', moveAssign i i s = some s' ∧ Shows s' a := by
  obtain ⟨p, s', h1, h2, h3⟩ := moveAssign_raw h hi hi
  refine ⟨s', h1, shows_congr h3 rfl ?_ ?_⟩
  · intro o ho
    simp only at ho ⊢
    by_cases hop : some o = p
    · subst hop
      have hpl := ((h.held i d o).1 h2).2
      rw [relocate_eq (d := d) (by simp [give]), hpl]
    · have hni : ∀ e, a.place o ≠ .ptr i e := fun e he => hop (not_held h h2 ho he).1.symm
      have e1 : relocate a.place i (fun _ => .client) o = a.place o := relocate_ne hni
      have e2 : relocate (relocate a.place i fun _ => .client) i .deleted o = a.place o := by
        rw [relocate_ne (by rw [e1]; exact hni), e1]
      have e4 : give (relocate (relocate a.place i fun _ => .client) i .deleted) i d p o = a.place o := by
        rw [give, if_neg hop, e2]
      rw [relocate_ne (by rw [e4]; exact hni), e4]
  · funext k
    by_cases hk : k = i
    · subst hk; simp only [upd_self, hi]
    · simp only [upd_ne _ hk]

theorem swap_spec {s : St} {a : Abs} (h : Shows s a) {i j d d' : Nat} (hi : a.ptrs i = some d)
    (hj : a.ptrs j = some d') : ∃ s', swap i j s = some s' ∧ Shows s' ⟨a.num, fun o =>
        match a.place o with
        | .ptr k d => if k = i then .ptr j d else if k = j then .ptr i d else .ptr k d
        | x => x, upd (upd a.ptrs i (some d')) j (some d)⟩ := by
  obtain ⟨p, hpi⟩ := live h hi
  obtain ⟨q, hqj⟩ := live h hj
  have hobj : ∀ k, (setObj (setObj s i (some ⟨d', q⟩)) j (some ⟨d, p⟩)).obj k =
      s.obj (if k = i then j else if k = j then i else k) := by
    intro k
    simp only [setObj]
    by_cases hkj : k = j
    · subst hkj
      rw [upd_self]
      by_cases hki : k = i
      · subst hki; simp [hpi]
      · simp [hki, hpi]
    · rw [upd_ne _ hkj]
      by_cases hki : k = i
      · subst hki; simp [upd_self, hqj]
      · simp [upd_ne _ hki, hki, hkj]
  refine ⟨setObj (setObj s i (some ⟨d', q⟩)) j (some ⟨d, p⟩),
    by simp only [swap, hpi, hqj, Option.bind_eq_bind, Option.bind_some]; rfl, h.num, ?_, ?_,
    ?_, ?_, h.once⟩
  · intro k
    rw [hobj, h.alive]
    change _ = upd (upd a.ptrs i (some d')) j (some d) k
    by_cases hkj : k = j
    · subst hkj
      rw [upd_self]
      by_cases hki : k = i
      · subst hki; simp [hi]
      · simp [hki, hi]
    · rw [upd_ne _ hkj]
      by_cases hki : k = i
      · subst hki; simp [upd_self, hj]
      · simp [upd_ne _ hki, hki, hkj]
  · intro k e o
    rw [hobj, h.held]
    refine and_congr_right fun ho => ?_
    simp only
    cases hp : a.place o with
    | client => simp
    | deleted d => simp
    | ptr l f =>
      simp only [Place.ptr.injEq]
      by_cases h1 : k = i <;> by_cases h2 : k = j <;> by_cases h3 : l = i <;> by_cases h4 : l = j <;>
        simp_all <;> omega
  · intro o
    simp only [setObj, h.client]
    refine and_congr_right fun ho => ?_
    cases hp : a.place o with
    | client => simp
    | deleted d => simp
    | ptr l f => simp only; repeat' split
                 all_goals simp
  · intro o e
    simp only [setObj]
    rw [h.deleted]
    refine and_congr_right fun ho => ?_
    cases hp : a.place o with
    | client => simp
    | deleted d => simp
    | ptr l f => simp only; repeat' split
                 all_goals simp

theorem newObj_spec {s : St} {a : Abs} (h : Shows s a) : ∃ s', newObj s = some s' ∧
    Shows s' ⟨a.num + 1, fun o => if o = a.num then .client else a.place o, a.ptrs⟩ := by
  refine ⟨_, rfl, by simp [h.num], h.alive, ?_, ?_, ?_, h.once⟩
  · intro i d o
    simp only
    rw [h.held]
    by_cases ho : o = a.num
    · subst ho; simp
    · rw [if_neg ho]
      exact ⟨fun x => ⟨by omega, x.2⟩, fun x => ⟨by omega, x.2⟩⟩
  · intro o
    simp only [List.mem_cons, h.client, h.num]
    by_cases ho : o = a.num
    · subst ho; simp
    · rw [if_neg ho]
      simp only [ho, false_or]
      exact ⟨fun x => ⟨by omega, x.2⟩, fun x => ⟨by omega, x.2⟩⟩
  · intro o d
    simp only
    rw [h.deleted]
    by_cases ho : o = a.num
    · subst ho; simp
    · rw [if_neg ho]
      exact ⟨fun x => ⟨by omega, x.2⟩, fun x => ⟨by omega, x.2⟩⟩

theorem step_spec {s : St} {a a' : Abs} {op : Op} (h : Shows s a) (he : Effect a op a') :
    ∃ s', step s op = some s' ∧ Shows s' a' := by
  cases he with
  | newObj => exact newObj_spec h
  | ctor i d p h1 h2 => exact ctor_spec h d h1 h2
  | dtor i d h1 => exact dtor_spec h h1
  | reset i d p h1 h2 => exact reset_spec h h1 h2
  | release i d h1 =>
    obtain ⟨p, s', r1, -, r3⟩ := release_spec h h1
    exact ⟨s', by simp [step, r1], r3⟩
  | moveCtor i j d h1 h2 => exact moveCtor_spec h h1 h2
  | moveAssign i j d d' h1 h2 h3 => exact moveAssign_spec h h1 h2 h3
  | selfMove i d h1 => exact selfMove_spec h h1
  | swap i j d d' h1 h2 => exact swap_spec h h1 h2

theorem reach_shows {s : St} {a : Abs} (h : Reach s a) : Shows s a := by
  induction h with
  | init =>
    refine ⟨rfl, fun _ => rfl, ?_, ?_, ?_, List.nodup_nil⟩
    · intro i d o
      exact ⟨fun e => (by cases e), fun e => absurd e.1 (Nat.not_lt_zero _)⟩
    · intro o
      exact ⟨fun e => absurd e (by simp [init]), fun e => absurd e.1 (Nat.not_lt_zero _)⟩
    · intro o d
      exact ⟨fun e => absurd e (by simp [init]), fun e => absurd e.1 (Nat.not_lt_zero _)⟩
  | call op s s' a a' _ he hs ih =>
    obtain ⟨s'', h1, h2⟩ := step_spec ih he
    rw [hs] at h1
    cases h1
    exact h2

end Verif.UniquePtr
