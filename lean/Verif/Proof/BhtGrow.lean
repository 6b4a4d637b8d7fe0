import Verif.Spec.BhtTable
import Verif.Proof.BhtRetry

/-! Helper lemmas for insertion into a `bht` that has keys already, and for `resize`. -/
namespace Verif.Bht

variable {K : Type} [DecidableEq K] {c : Cfg K} {task : Nat → Task K} {s s' : St K} {t N n0 : Nat} {act : Nat → K} {slots : Nat → Nat} {old : Nat → Pc}

/-- The state in which the keys of the table were inserted by calls with the first numbers. -/
def ghost (old : Nat → Pc) (n0 : Nat) (s : St K) : St K :=
  { s with pc := fun u => if u < n0 then old u else s.pc (u - n0) }

/-- Calls that inserted keys. -/
def rets (slots : Nat → Nat) (u : Nat) : Pc := .ret (slots u) u

def ghostTask (act : Nat → K) (n0 : Nat) (task : Nat → Task K) (u : Nat) : Task K :=
  if u < n0 then resizeTask act u else task (u - n0)

omit [DecidableEq K] in
theorem ghost_pc (s : St K) (t : Nat) : (ghost old n0 s).pc (t + n0) = s.pc t := by
  simp [ghost, Nat.not_lt.2 (Nat.le_add_left n0 t)]

omit [DecidableEq K] in
theorem ghostTask_new (t : Nat) : ghostTask act n0 task (t + n0) = task t := by
  simp [ghostTask, Nat.not_lt.2 (Nat.le_add_left n0 t)]

omit [DecidableEq K] in
theorem ghost_upd (s : St K) (t : Nat) (p : Pc) :
    upd (ghost old n0 s).pc (t + n0) p = fun u => if u < n0 then old u else upd s.pc t p (u - n0) := by
  funext u
  by_cases h : u < n0
  · simp only [upd, ghost, if_pos h, if_neg (show u ≠ t + n0 by omega)]
  · by_cases e : u = t + n0
    · subst e
      simp only [upd, if_neg h, if_true, Nat.add_sub_cancel]
    · simp only [upd, ghost, if_neg h, if_neg e, if_neg (show u - n0 ≠ t by omega)]

omit [DecidableEq K] in
theorem ghost_goto (s : St K) (t : Nat) (p : Pc) : (ghost old n0 s).goto (t + n0) p = ghost old n0 (s.goto t p) := by
  unfold St.goto
  rw [ghost_upd]
  rfl

omit [DecidableEq K] in
theorem ghost_next (s : St K) (t i : Nat) : (ghost old n0 s).next (t + n0) i = ghost old n0 (s.next t i) := by
  unfold St.next
  split
  · exact ghost_goto _ _ _
  · rw [ghost_goto]; rfl

theorem step_ghost (t : Nat) (stale : Bool) :
    step c (ghostTask act n0 task) (ghost old n0 s) (t + n0) stale = (step c task s t stale).map (ghost old n0) := by
  unfold step
  rw [ghost_pc, ghostTask_new]
  cases s.pc t with
  | start => simp only [ghost_goto, Option.map_some]; split <;> rfl
  | scan i l =>
    have hkk : (ghost old n0 s).keys = s.keys := rfl
    simp only [ghost_goto, ghost_next, hkk]
    split
    · rfl
    · simp only [Option.map_some, apply_ite (ghost old n0)]
  | cas i l =>
    simp only [ghost_goto]
    change (if c.size ≤ _ then none else if s.keys _ = _ then some _ else _) = _
    split
    · rfl
    · split
      · simp only [Option.map_some, Option.some.injEq]
        rw [ghost_upd]; rfl
      · rfl
  | count a =>
    simp only [ghost_goto]
    cases (task t).given with
    | some n => rfl
    | none =>
      simp only [Option.map_some, Option.some.injEq]
      rw [ghost_upd]; rfl
  | setIdx a n =>
    simp only
    split
    · rfl
    · simp only [Option.map_some, Option.some.injEq]
      rw [ghost_upd]; rfl
  | setKey a n =>
    simp only [ghost_goto]
    split
    · split
      · rfl
      · simp only [Option.map_some, Option.some.injEq]
        rw [ghost_upd]; rfl
    · rfl
  | finish a n => simp only [ghost_goto, Option.map_some]; split <;> rfl
  | _ => rfl

theorem run_ghost : ∀ (sched : List (Nat × Bool)) (s : St K),
    run c (ghostTask act n0 task) (ghost old n0 s) (sched.map fun x => (x.1 + n0, x.2)) = (run c task s sched).map (ghost old n0) := by
  intro sched
  induction sched with
  | nil => intro s; rfl
  | cons x rest ih =>
    obtain ⟨t, stale⟩ := x
    intro s
    simp only [List.map_cons, run]
    rw [step_ghost]
    cases h : step c task s t stale with
    | none => rfl
    | some s1 => exact ih s1

/-- The calls insert new keys. -/
def Inserts (task : Nat → Task K) : Prop := ∀ t, (task t).given = none ∧ (task t).enqueue = true

omit [DecidableEq K] in
theorem ghost_mixed (h : Inserts task) : Mixed (ghostTask act n0 task) n0 act :=
  ⟨fun t ht => by simp [ghostTask, ht], fun t ht => by simp only [ghostTask, if_neg (Nat.not_lt.2 ht)]; exact h _⟩

omit [DecidableEq K] in
theorem Sound.slot_of (h : Sound c s) : ∃ slots : Nat → Nat, ∀ i < s.cnt, s.keys (slots i) = s.active i ∧ s.indices (slots i) = i := by
  have ex : ∀ i, ∃ a, i < s.cnt → s.keys a = s.active i ∧ s.indices a = i := by
    intro i
    by_cases hi : i < s.cnt
    · obtain ⟨_, a, ha⟩ := h.listed i hi
      exact ⟨a, fun _ => ha⟩
    · exact ⟨0, fun h => absurd h hi⟩
  obtain ⟨g, hg⟩ := Classical.axiomOfChoice ex
  exact ⟨g, hg⟩

omit [DecidableEq K] in
theorem Sound.inj (h : Sound c s) (hB : 2 ≤ c.B) {a b : Nat} (ha : s.keys a ≠ c.hole) (e : s.keys a = s.keys b) : a = b := by
  obtain ⟨_, i, l, hi, hl, ea, hc⟩ := h.placed a ha
  obtain ⟨_, i', l', hi', hl', eb, hc'⟩ := h.placed b (e ▸ ha)
  rw [← e] at eb hc'
  unfold Cfg.threshold at hl hl'
  rcases Nat.lt_trichotomy i i' with x | x | x
  · exact absurd (ea ▸ rfl) (hc' i l (Or.inl ⟨x, by omega⟩)).2
  · subst x
    rcases Nat.lt_trichotomy l l' with y | y | y
    · exact absurd (ea ▸ rfl) (hc' i l (Or.inr ⟨rfl, y⟩)).2
    · subst y
      rw [ea, eb]
    · refine absurd ?_ (hc i l' (Or.inr ⟨rfl, y⟩)).2
      rw [← eb, e]
  · refine absurd ?_ (hc i' l' (Or.inl ⟨x, by omega⟩)).2
    rw [← eb, e]

omit [DecidableEq K] in
theorem Sound.inv (hB : 2 ≤ c.B) (h : Sound c s) (hi : Idle s) (hs : ∀ i < s.cnt, s.keys (slots i) = s.active i ∧ s.indices (slots i) = i) :
    Inv c (ghostTask s.active s.cnt task) (ghost (rets slots) s.cnt s) := by
  have pc : ∀ u, (u < s.cnt ∧ (ghost (rets slots) s.cnt s).pc u = .ret (slots u) u) ∨ (ghost (rets slots) s.cnt s).pc u = .start := by
    intro u
    by_cases hu : u < s.cnt
    · exact .inl ⟨hu, by simp only [ghost, if_pos hu, rets]⟩
    · exact .inr (by simp only [ghost, if_neg hu]; exact hi _)
  have slot : ∀ u a, ((ghost (rets slots) s.cnt s).pc u).slot = some a → u < s.cnt ∧ a = slots u := by
    intro u a ha
    rcases pc u with ⟨h1, e⟩ | e
    · rw [e] at ha
      cases ha
      exact ⟨h1, rfl⟩
    · rw [e] at ha; cases ha
  have key : ∀ u < s.cnt, (ghostTask s.active s.cnt task u).key = s.active u := fun u hu => by simp [ghostTask, hu, resizeTask]
  constructor
  · intro u i l hu
    rcases pc u with ⟨_, e⟩ | e <;> rw [e] at hu <;> rcases hu with hu | hu <;> cases hu
  · intro u i l hu
    rcases pc u with ⟨_, e⟩ | e <;> rw [e] at hu <;> cases hu
  · exact h.placed
  · intro u a ha
    obtain ⟨h1, rfl⟩ := slot u a ha
    rw [key u h1]
    exact ⟨(hs u h1).1, (h.listed u h1).1⟩
  · intro a ha
    obtain ⟨h1, h2⟩ := h.slot a ha
    refine ⟨s.indices a, ?_⟩
    simp only [ghost, if_pos h1, rets, Pc.slot, Option.some.injEq]
    exact h.inj hB (by rw [(hs _ h1).1, h2]; exact ha) (by rw [(hs _ h1).1, h2])
  · intro u u' a ha ha'
    obtain ⟨h1, e1⟩ := slot u a ha
    obtain ⟨h2, e2⟩ := slot u' a ha'
    have := (hs u h1).2
    rw [← e1, e2, (hs u' h2).2] at this
    exact this.symm
  · intro u hu
    rcases pc u with ⟨_, e⟩ | e <;> rw [e] at hu <;> cases hu
  · intro u a n hw
    rcases pc u with ⟨h1, e⟩ | e
    · rw [e] at hw
      cases hw
      exact (hs u h1).2
    · rw [e] at hw; cases hw

/-- A table in which calls with the first numbers have run and no other call has begun. -/
structure Seen (c : Cfg K) (s : St K) (old : Nat → Pc) : Prop where
  idle : Idle s
  inv : ∀ task : Nat → Task K, Inv c (ghostTask s.active s.cnt task) (ghost old s.cnt s)
  no : ∀ u n, u < s.cnt → (old u).no = some n → n = u
  blocked : ∀ task : Nat → Task K, Blocked c (ghostTask s.active s.cnt task) (ghost old s.cnt s)

omit [DecidableEq K] in
theorem Sound.seen (hB : 2 ≤ c.B) (h : Sound c s) (hi : Idle s) : ∃ slots, Seen c s (rets slots) := by
  obtain ⟨slots, hs⟩ := h.slot_of
  refine ⟨slots, hi, fun _ => h.inv hB hi hs, ?_, fun task u => ?_⟩
  · intro u n _ hn
    simp only [rets, Pc.no, Option.some.injEq] at hn
    exact hn.symm
  · have : (ghost (rets slots) s.cnt s).pc u = .ret (slots u) u ∨ (ghost (rets slots) s.cnt s).pc u = .start := by
      by_cases hu : u < s.cnt
      · exact .inl (by simp only [ghost, if_pos hu, rets])
      · exact .inr (by simp only [ghost, if_neg hu]; exact hi _)
    rcases this with e | e <;> rw [e] <;> exact ⟨fun h => (by cases h), fun _ _ h => (by cases h)⟩

/-- After `resize`, even if it failed. -/
theorem resize_seen {indices : Nat → Nat} {act : Nat → K} (hB : 2 ≤ c.B) (hr : Ran c (resizeTask act) (c.empty n0 act indices) n0 s) :
    s.cnt = n0 ∧ s.active = act ∧ Seen c { s with pc := fun _ => .start } s.pc := by
  obtain ⟨sched, hx, hr'⟩ := hr
  obtain ⟨s2, h1, h2, h3⟩ := bht_resize_safe (indices := indices) hB act n0 sched
  rw [hr'] at h1
  cases h1
  have hrg : ∀ task, Ran c (ghostTask act n0 task) (c.empty n0 act indices) n0 s := by
    intro task
    refine ⟨sched, hx, ?_⟩
    rw [← hr']
    refine run_congr sched (fun x h => ?_) _
    simp only [ghostTask, if_pos (hx x h)]
  have hid : ∀ t, n0 ≤ t → s.pc t = .start := by
    refine run_induct (P := fun s => ∀ t, n0 ≤ t → s.pc t = .start) ?_ sched _ s hx (fun t _ => rfl) hr'
    intro s1 t stale s2 ht' hP hst u hu
    rw [step_other hst (by omega)]
    exact hP u hu
  have e : ghost s.pc n0 { s with pc := fun _ => .start } = s := by
    have : (fun u => if u < n0 then s.pc u else Pc.start) = s.pc := by
      funext u
      split
      · rfl
      · rename_i hu
        exact (hid u (by omega)).symm
    simp only [ghost, this]
  refine ⟨h2, h3, fun _ => rfl, fun task => ?_, ?_, fun task => ?_⟩
  · show Inv c (ghostTask s.active s.cnt task) (ghost s.pc s.cnt { s with pc := fun _ => .start })
    have h := (hrg task).inv hB
    rw [← e, ← h2, ← h3] at h
    exact h
  · intro u n _ hn
    exact Ran.induct (P := fun s => ∀ u n, (s.pc u).no = some n → n = u) ⟨sched, hx, hr'⟩ (by simp [Cfg.empty, Pc.no])
      (fun s t stale s' _ hP hs => (resize_frame hs).2.2 hP) u n hn
  · show Blocked c (ghostTask s.active s.cnt task) (ghost s.pc s.cnt { s with pc := fun _ => .start })
    have h := (hrg task).blocked hB
    rw [← e, ← h2, ← h3] at h
    exact h

/-- What holds while calls insert into a table that has keys. -/
theorem Seen.ran (hB : 2 ≤ c.B) (h : Seen c s old) (ht : Inserts task) (hr : Ran c task s N s') :
    Inv c (ghostTask s.active s.cnt task) (ghost old s.cnt s') ∧ Mix (ghostTask s.active s.cnt task) s.cnt s.active (ghost old s.cnt s')
      ∧ ∀ t, N ≤ t → s'.pc t = .start := by
  obtain ⟨sched, hx, hr⟩ := hr
  have hg := run_ghost (c := c) (act := s.active) (n0 := s.cnt) (task := task) (old := old) sched s
  rw [hr] at hg
  have hG : Ran c (ghostTask s.active s.cnt task) (ghost old s.cnt s) (s.cnt + N) (ghost old s.cnt s') := by
    refine ⟨_, ?_, hg⟩
    intro x hx'
    obtain ⟨y, hy, rfl⟩ := List.mem_map.1 hx'
    have := hx y hy
    simp only
    omega
  have hi := h.idle
  refine ⟨hG.induct (h.inv task) fun _ _ _ _ _ hI hst => hI.step hB hst, hG.induct ?_ fun _ _ _ _ _ hM hst => hM.step (ghost_mixed ht) hst, ?_⟩
  · have new : ∀ u, s.cnt ≤ u → (ghost old s.cnt s).pc u = .start := fun u hu => by
      simp only [ghost, if_neg (Nat.not_lt.2 hu)]; exact hi _
    refine ⟨Nat.le_refl _, fun _ _ => rfl, ?_, ?_, ?_, ?_, ?_⟩
    · intro u n hu hn
      simp only [ghost, if_pos hu] at hn
      exact h.no u n hu hn
    · intro u n hu hn
      rw [new u hu] at hn; cases hn
    · intro u u' n hu hu' hn
      rw [new u hu] at hn; cases hn
    · intro n h1 h2
      simp only [ghost] at h2
      omega
    · intro u n hu hn
      rw [new u hu] at hn; cases hn
  · refine run_induct (P := fun s => ∀ t, N ≤ t → s.pc t = .start) ?_ sched s s' hx (fun t _ => hi t) hr
    intro s1 t stale s2 ht' hP hst u hu
    rw [step_other hst (by omega)]
    exact hP u hu

/-- Each call lists at most one key. -/
theorem Seen.cnt_le (hB : 2 ≤ c.B) (h : Seen c s old) (ht : Inserts task) (hr : Ran c task s N s') : s'.cnt ≤ s.cnt + N := by
  obtain ⟨_, hM, hid⟩ := h.ran hB ht hr
  have ex : ∀ n, ∃ t, s.cnt ≤ n → n < s'.cnt → t < N ∧ (s'.pc t).no = some n := by
    intro n
    by_cases hn : s.cnt ≤ n ∧ n < s'.cnt
    · obtain ⟨t, h1, e⟩ := hM.onto n hn.1 hn.2
      have e' : (s'.pc (t - s.cnt)).no = some n := by
        simpa only [ghost, if_neg (Nat.not_lt.2 h1)] using e
      refine ⟨t - s.cnt, fun _ _ => ⟨?_, e'⟩⟩
      apply Classical.byContradiction
      intro hN
      rw [hid _ (by omega)] at e'
      cases e'
    · exact ⟨0, fun h1 h2 => absurd ⟨h1, h2⟩ hn⟩
  obtain ⟨f, hf⟩ := Classical.axiomOfChoice ex
  have hle := hM.le
  have nd : ((List.range (s'.cnt - s.cnt)).map fun i => f (s.cnt + i)).Nodup := by
    refine List.Nodup.map_on ?_ List.nodup_range
    intro i hi j hj e
    have hi := List.mem_range.1 hi
    have hj := List.mem_range.1 hj
    have h1 := (hf (s.cnt + i) (by omega) (by omega)).2
    have h2 := (hf (s.cnt + j) (by omega) (by omega)).2
    rw [e, h2] at h1
    have := Option.some.inj h1
    omega
  have sub : ((List.range (s'.cnt - s.cnt)).map fun i => f (s.cnt + i)) ⊆ List.range N := by
    intro t ht'
    obtain ⟨i, hi, rfl⟩ := List.mem_map.1 ht'
    have hi := List.mem_range.1 hi
    exact List.mem_range.2 (hf (s.cnt + i) (by omega) (by omega)).1
  have := (nd.subperm sub).length_le
  simp only [List.length_map, List.length_range] at this
  omega

theorem Sound.ran (hB : 2 ≤ c.B) (h : Sound c s) (hi : Idle s) (ht : Inserts task) (hr : Ran c task s N s') :
    ∃ slots, Inv c (ghostTask s.active s.cnt task) (ghost (rets slots) s.cnt s')
      ∧ Mix (ghostTask s.active s.cnt task) s.cnt s.active (ghost (rets slots) s.cnt s') ∧ ∀ t, N ≤ t → s'.pc t = .start := by
  obtain ⟨slots, hs⟩ := h.seen hB hi
  exact ⟨slots, hs.ran hB ht hr⟩

/-- In an intact table each listed key has a slot of its own. -/
theorem Sound.cnt_le_size (hB : 2 ≤ c.B) (h : Sound c s) (hi : Idle s) (ht : Inserts task) (hr : Ran c task s N s') : s'.cnt ≤ c.size := by
  obtain ⟨slots, hI, hM, _⟩ := h.ran hB hi ht hr
  have old : ∀ u < s.cnt, (ghost (rets slots) s.cnt s').pc u = .ret (slots u) u := fun u hu => by simp only [ghost, if_pos hu, rets]
  have hN : Num (ghostTask s.active s.cnt task) (ghost (rets slots) s.cnt s') := by
    refine ⟨?_, ?_, ?_, ?_⟩
    · intro u n hn
      rcases Nat.lt_or_ge u s.cnt with hu | hu
      · rw [hM.oldNo u n hu hn]; exact Nat.lt_of_lt_of_le hu hM.le
      · exact (hM.lt u n hu hn).2
    · intro u v n hu hv
      rcases Nat.lt_or_ge u s.cnt with h1 | h1 <;> rcases Nat.lt_or_ge v s.cnt with h2 | h2
      · rw [← hM.oldNo u n h1 hu, ← hM.oldNo v n h2 hv]
      · have := hM.oldNo u n h1 hu
        have := (hM.lt v n h2 hv).1
        omega
      · have := hM.oldNo v n h2 hv
        have := (hM.lt u n h1 hu).1
        omega
      · exact hM.inj u v n h1 h2 hu hv
    · intro n hn
      rcases Nat.lt_or_ge n s.cnt with h1 | h1
      · exact ⟨n, by rw [old n h1]; rfl⟩
      · obtain ⟨t, _, e⟩ := hM.onto n h1 hn
        exact ⟨t, e⟩
    · intro u n hu
      rcases Nat.lt_or_ge u s.cnt with h1 | h1
      · rw [old u h1] at hu
        cases hu
        rw [hM.oldAct u h1]
        simp [ghostTask, h1, resizeTask]
      · exact hM.act u n h1 hu
  have := Bht.cnt_le hI hN hB
  exact this

/-- The list of keys, when the calls have returned, whether refused or not. -/
theorem Seen.keys (hB : 2 ≤ c.B) (h : Seen c s old) (ht : Inserts task) (hr : Ran c task s N s') (hf : Finished s' N) :
    s.cnt ≤ s'.cnt ∧ (∀ i < s.cnt, s'.active i = s.active i) ∧ ∀ i, s.cnt ≤ i → i < s'.cnt → ∃ t < N, s'.active i = (task t).key := by
  obtain ⟨_, hM, hid⟩ := h.ran hB ht hr
  refine ⟨hM.le, hM.oldAct, fun i h1 h2 => ?_⟩
  obtain ⟨t, ht1, e⟩ := hM.onto i h1 h2
  obtain ⟨u, rfl⟩ : ∃ u, t = u + s.cnt := ⟨t - s.cnt, by omega⟩
  have e' := e
  rw [ghost_pc] at e'
  have hu : u < N := by
    apply Classical.byContradiction
    intro hN
    rw [hid u (by omega)] at e'
    cases e'
  have hl := listed_of_no (s := ghost old s.cnt s') (t := u + s.cnt) (by unfold result; rw [ghost_pc]; exact hf u hu) e
  have := hM.act (u + s.cnt) i (by omega) hl
  rw [ghostTask_new] at this
  exact ⟨u, hu, this⟩

theorem Ran.snoc {stale : Bool} {s0 s1 s2 : St K} (h : Ran c task s0 N s1) (ht : t < N) (hs : step c task s1 t stale = some s2) : Ran c task s0 N s2 := by
  obtain ⟨sched, hx, hr⟩ := h
  refine ⟨sched ++ [(t, stale)], ?_, ?_⟩
  · intro x hx'
    rcases List.mem_append.1 hx' with h | h
    · exact hx x h
    · rw [List.mem_singleton.1 h]; exact ht
  · rw [run_append, hr]
    simp [run, hs]

/-- Each step is defined, if there is room for the listed keys. -/
theorem Seen.step (hB : 2 ≤ c.B) (h : Seen c s old) (ht : Inserts task) (hroom : ∀ s', Ran c task s N s' → s'.cnt ≤ c.size) (hr : Ran c task s N s') (t : Nat) (stale : Bool) :
    ∃ s2, Bht.step c task s' t stale = some s2 := by
  obtain ⟨hI, hM, _⟩ := h.ran hB ht hr
  have hc := hroom s' hr
  obtain ⟨s2, h2⟩ := step_defined hI hB (fun u n hno he => by
    rcases Nat.lt_or_ge u s.cnt with hu | hu
    · rw [(ghost_mixed ht).old u hu] at he
      simp [resizeTask] at he
    · have := (hM.lt u n hu hno).2
      simp only [ghost] at this
      omega) (t + s.cnt) stale
  rw [step_ghost] at h2
  cases h3 : Bht.step c task s' t stale with
  | none => rw [h3] at h2; cases h2
  | some s3 => exact ⟨s3, rfl⟩

theorem Seen.safe (hB : 2 ≤ c.B) (h : Seen c s old) (ht : Inserts task) (hroom : ∀ s', Ran c task s N s' → s'.cnt ≤ c.size) :
    ∀ (sched : List (Nat × Bool)) (s' : St K), (∀ x ∈ sched, x.1 < N) → Ran c task s N s' → run c task s' sched ≠ none := by
  intro sched
  induction sched with
  | nil => intro s' _ _ h; cases h
  | cons x rest ih =>
    obtain ⟨t, stale⟩ := x
    intro s' hx hr
    obtain ⟨s2, h2⟩ := h.step hB ht hroom hr t stale
    simp only [run, h2]
    exact ih s2 (fun x h => hx x (List.mem_cons_of_mem _ h)) (hr.snoc (hx _ List.mem_cons_self) h2)

/-- A call can finish. -/
theorem finish_one {s0 : St K} (hd : ∀ s' t, Ran c task s0 N s' → t < N → result s' t = none → ∃ s2, Bht.step c task s' t false = some s2 ∧
      need c task s2 t < need c task s' t) (t : Nat) (htN : t < N) :
    ∀ (m : Nat) (s' : St K), need c task s' t ≤ m → Ran c task s0 N s' →
      ∃ s2, Ran c task s0 N s2 ∧ result s2 t ≠ none ∧ ∀ u, result s' u ≠ none → result s2 u ≠ none := by
  intro m
  induction m with
  | zero =>
    intro s' hm hr
    refine ⟨s', hr, ?_, fun _ h => h⟩
    intro hn
    unfold need at hm
    unfold result at hn
    revert hn hm
    cases s'.pc t <;> simp
  | succ m ih =>
    intro s' hm hr
    by_cases hn : result s' t = none
    · obtain ⟨s2, h2, hlt⟩ := hd s' t hr htN hn
      obtain ⟨s3, r3, k3, o3⟩ := ih s2 (by omega) (hr.snoc htN h2)
      refine ⟨s3, r3, k3, fun u hu => o3 u ?_⟩
      rw [bht_result_stable [(t, false)] (show run c task s' [(t, false)] = some s2 by simp [run, h2]) u hu]
      exact hu
    · exact ⟨s', hr, hn, fun _ h => h⟩

/-- All calls can finish. -/
theorem finishes {s0 : St K} (hd : ∀ s' t, Ran c task s0 N s' → t < N → result s' t = none → ∃ s2, Bht.step c task s' t false = some s2 ∧
      need c task s2 t < need c task s' t) : ∃ s', Ran c task s0 N s' ∧ Finished s' N := by
  have : ∀ m ≤ N, ∃ s', Ran c task s0 N s' ∧ Finished s' m := by
    intro m
    induction m with
    | zero => intro _; exact ⟨s0, ⟨[], by simp, rfl⟩, fun t h => by omega⟩
    | succ m ih =>
      intro hm
      obtain ⟨s1, r1, f1⟩ := ih (by omega)
      obtain ⟨s2, r2, k2, o2⟩ := finish_one hd m (by omega) _ s1 (Nat.le_refl _) r1
      refine ⟨s2, r2, fun t ht' => ?_⟩
      by_cases e : t = m
      · subst e; exact k2
      · exact o2 t (f1 t (by omega))
  exact this N (Nat.le_refl _)

theorem Seen.finishes (hB : 2 ≤ c.B) (h : Seen c s old) (ht : Inserts task) (hroom : ∀ s', Ran c task s N s' → s'.cnt ≤ c.size) :
    ∃ s', Ran c task s N s' ∧ Finished s' N := by
  refine Bht.finishes fun s' t hr _ hn => ?_
  obtain ⟨s2, h2⟩ := h.step hB ht hroom hr t false
  refine ⟨s2, h2, ?_⟩
  obtain ⟨hI, _, _⟩ := h.ran hB ht hr
  have hg := step_ghost (c := c) (act := s.active) (n0 := s.cnt) (task := task) (old := old) (s := s') t false
  rw [h2] at hg
  have hlt := need_step hI hB hg (by unfold result at hn ⊢; rw [ghost_pc]; exact hn)
  have e : ∀ x : St K, need c (ghostTask s.active s.cnt task) (ghost old s.cnt x) (t + s.cnt) = need c task x t := by
    intro x
    unfold need
    rw [ghost_pc, ghostTask_new]
    rfl
  rw [e, e] at hlt
  exact hlt

theorem resize_finishes {indices : Nat → Nat} {cnt n : Nat} (hB : 2 ≤ c.B) (act : Nat → K) :
    ∃ s', Ran c (resizeTask act) (c.empty cnt act indices) n s' ∧ Finished s' n := by
  refine Bht.finishes fun s' t hr _ hn => ?_
  have hI := hr.inv hB
  obtain ⟨s2, h2⟩ := step_defined hI hB (fun t n hn he => by simp [resizeTask] at he) t false
  exact ⟨s2, h2, need_step hI hB h2 hn⟩

/-- If no call was refused, the table has the old keys with their numbers and those of the calls. -/
theorem Sound.insert (hB : 2 ≤ c.B) (h : Sound c s) (hi : Idle s) (ht : Inserts task) (hk : ∀ t < N, (task t).key ≠ c.hole)
    (hr : Ran c task s N s') (hf : Finished s' N) (hok : ∀ t < N, result s' t ≠ some .failure) :
    Sound c s' ∧ s.cnt ≤ s'.cnt ∧ (∀ i < s.cnt, s'.active i = s.active i)
      ∧ (∀ i, s.cnt ≤ i → i < s'.cnt → ∃ t < N, s'.active i = (task t).key) ∧ ∀ t < N, ∃ i < s'.cnt, s'.active i = (task t).key := by
  obtain ⟨slots, hI, hM, hid⟩ := h.ran hB hi ht hr
  have hlt : ∀ t a, (s'.pc t).slot = some a → t < N := by
    intro t a ha
    apply Classical.byContradiction
    intro hN
    rw [hid t (by omega)] at ha
    cases ha
  have old : ∀ u < s.cnt, (ghost (rets slots) s.cnt s').pc u = .ret (slots u) u := fun u hu => by simp only [ghost, if_pos hu, rets]
  have new : ∀ u, s.cnt ≤ u → (ghost (rets slots) s.cnt s').pc u = s'.pc (u - s.cnt) := fun u hu => by simp only [ghost, if_neg (Nat.not_lt.2 hu)]
  have oldKey : ∀ u < s.cnt, (ghostTask s.active s.cnt task u).key = s.active u := fun u hu => by simp [ghostTask, hu, resizeTask]
  have newKey : ∀ u, s.cnt ≤ u → ghostTask s.active s.cnt task u = task (u - s.cnt) := fun u hu => by simp only [ghostTask, if_neg (Nat.not_lt.2 hu)]
  have hnew : ∀ i, s.cnt ≤ i → i < s'.cnt → ∃ t < N, ∃ a, s'.pc t = .ret a i ∧ s'.keys a = (task t).key ∧ s'.indices a = i ∧ s'.active i = (task t).key := by
    intro i h1 h2
    obtain ⟨u, hu, e⟩ := hM.onto i h1 h2
    have e' := e
    rw [new u hu] at e'
    obtain ⟨a, ha⟩ := no_slot e'
    have hN := hlt _ _ ha
    obtain ⟨n, hn⟩ := result_won ha (hf _ hN) (hok _ hN)
    rw [hn] at e'
    cases e'
    have ho := hI.own u a (by rw [new u hu, hn]; rfl)
    have hx := hI.idx u a i (by rw [new u hu, hn]; rfl)
    have ha' := hM.act u i hu (by rw [new u hu, hn]; rfl)
    rw [newKey u hu] at ho ha'
    exact ⟨u - s.cnt, hN, a, hn, ho.1, hx, ha'⟩
  have hle : s.cnt ≤ s'.cnt := hM.le
  refine ⟨⟨hI.placed, ?_, ?_⟩, hM.le, hM.oldAct, ?_, ?_⟩
  · intro a ha
    obtain ⟨u, hu⟩ := hI.owner a ha
    rcases Nat.lt_or_ge u s.cnt with h1 | h1
    · rw [old u h1] at hu
      cases hu
      have e : s'.indices (slots u) = u := hI.idx u _ u (by rw [old u h1]; rfl)
      have := hI.own u _ (by rw [old u h1]; rfl)
      rw [oldKey u h1] at this
      rw [e]
      exact ⟨by omega, (hM.oldAct u h1).trans this.1.symm⟩
    · have hN : u - s.cnt < N := hlt _ a (by rw [← new u h1]; exact hu)
      obtain ⟨n, hn⟩ := result_won (by rw [← new u h1]; exact hu) (hf _ hN) (hok _ hN)
      have e : s'.indices a = n := hI.idx u a n (by rw [new u h1, hn]; rfl)
      have h2 := hM.lt u n h1 (by rw [new u h1, hn]; rfl)
      have h3 := hM.act u n h1 (by rw [new u h1, hn]; rfl)
      have h4 := hI.own u a hu
      rw [e]
      exact ⟨h2.2, h3.trans h4.1.symm⟩
  · intro i hi'
    rcases Nat.lt_or_ge i s.cnt with h1 | h1
    · have h2 := hI.own i _ (by rw [old i h1]; rfl)
      rw [oldKey i h1] at h2
      have e : s'.active i = s.active i := hM.oldAct i h1
      rw [e]
      exact ⟨h2.2, slots i, h2.1, hI.idx i _ i (by rw [old i h1]; rfl)⟩
    · obtain ⟨t, htN, a, _, k1, k2, k3⟩ := hnew i h1 hi'
      rw [k3]
      exact ⟨hk t htN, a, k1, k2⟩
  · intro i h1 h2
    obtain ⟨t, htN, a, _, _, _, k⟩ := hnew i h1 h2
    exact ⟨t, htN, k⟩
  · intro t htN
    cases hres : result s' t with
    | none => exact absurd hres (hf t htN)
    | some r =>
      have pick : ∀ a, s'.keys a = (task t).key → ∃ i < s'.cnt, s'.active i = (task t).key := by
        intro a ha
        obtain ⟨u, hu⟩ := hI.owner a (by show s'.keys a ≠ c.hole; rw [ha]; exact hk t htN)
        rcases Nat.lt_or_ge u s.cnt with h1 | h1
        · rw [old u h1] at hu
          cases hu
          have := hI.own u _ (by rw [old u h1]; rfl)
          rw [oldKey u h1] at this
          exact ⟨u, by omega, (hM.oldAct u h1).trans (this.1.symm.trans ha)⟩
        · have hN : u - s.cnt < N := hlt _ a (by rw [← new u h1]; exact hu)
          obtain ⟨n, hn⟩ := result_won (by rw [← new u h1]; exact hu) (hf _ hN) (hok _ hN)
          have h2 := hM.lt u n h1 (by rw [new u h1, hn]; rfl)
          have h3 := hM.act u n h1 (by rw [new u h1, hn]; rfl)
          exact ⟨n, h2.2, h3.trans ((hI.own u a hu).1.symm.trans ha)⟩
      cases r with
      | failure => exact absurd hres (hok t htN)
      | index n =>
        obtain ⟨a, e⟩ := result_index hres
        have := hI.own (t + s.cnt) a (by rw [ghost_pc, e]; rfl)
        rw [ghostTask_new] at this
        exact pick a this.1
      | present =>
        have hp := hI.present (t + s.cnt) (by rw [ghost_pc]; exact result_present hres)
        rw [ghostTask_new] at hp
        obtain ⟨a, ha⟩ := hp.resolve_left (hk t htN)
        exact pick a ha

/-- `query` in such a table. -/
theorem Sound.query (hB : 2 ≤ c.B) (h : Sound c s) {k : K} (hk : k ≠ c.hole) (i : Nat) : Bht.query c s k = some i ↔ i < s.cnt ∧ s.active i = k := by
  obtain ⟨slots, hs⟩ := h.slot_of
  have hI : Inv c (ghostTask s.active s.cnt fun _ => ⟨c.hole, none, true⟩) (ghost (rets slots) s.cnt { s with pc := fun _ => .start }) :=
    Sound.inv (s := { s with pc := fun _ => .start }) hB ⟨h.placed, h.slot, h.listed⟩ (fun _ => rfl) hs
  have hq : ∀ a, s.keys a ≠ c.hole → Bht.query c s (s.keys a) = some (s.indices a) := fun a ha => query_of_slot hI hB ha
  constructor
  · intro h1
    by_cases hex : ∃ a, s.keys a = k
    · obtain ⟨a, rfl⟩ := hex
      rw [hq a hk] at h1
      cases h1
      exact h.slot a hk
    · rw [query_absent fun a e => hex ⟨a, e⟩] at h1
      cases h1
  · rintro ⟨hi, rfl⟩
    obtain ⟨h1, a, h2, h3⟩ := h.listed i hi
    rw [← h2, hq a (by rw [h2]; exact h1), h3]

/-- The flag shows whether a call was refused. -/
theorem success_ok (hn : c.nb ≠ 0) (hi : Idle s) (hr : Ran c task s N s') (hs : s'.success = true) : s.success = true ∧ ∀ t, result s' t ≠ some .failure := by
  have key : s'.success = true → s.success = true ∧ ∀ t, result s' t ≠ some .failure := by
    refine hr.induct (P := fun x => x.success = true → s.success = true ∧ ∀ t, result x t ≠ some .failure) ?_ ?_
    · intro h
      refine ⟨h, fun t => ?_⟩
      unfold result
      rw [hi t]
      simp
    · intro s1 t stale s2 _ hP hst hs2
      have goto : ∀ {p : Pc}, s1.success = s2.success → s2.pc = upd s1.pc t p → p ≠ .failed → (∀ a n, p ≠ .near a n) →
          s.success = true ∧ ∀ t, result s2 t ≠ some .failure := by
        intro p h1 h2 h3 h4
        obtain ⟨k1, k2⟩ := hP (h1.trans hs2)
        refine ⟨k1, fun u => ?_⟩
        unfold result
        rw [h2]
        by_cases e : u = t
        · subst e
          rw [upd_same]
          revert h3 h4
          cases p <;> simp
        · rw [upd_ne _ _ e]
          exact k2 u
      have hnext : ∀ i, s2 = s1.next t i → s.success = true ∧ ∀ t, result s2 t ≠ some .failure := by
        intro i e
        subst e
        unfold St.next at hs2 goto ⊢
        split at hs2
        · rename_i h
          rw [if_pos h] at goto ⊢
          exact goto (p := .scan (i + 1) 0) rfl rfl (by simp) (by simp)
        · cases hs2
      unfold Bht.step at hst
      cases hpc : s1.pc t with
      | start =>
        rw [hpc] at hst
        simp only [if_neg hn] at hst
        cases hst
        exact goto (p := .scan 0 0) rfl rfl (by simp) (by simp)
      | scan i l =>
        rw [hpc] at hst
        simp only at hst
        split at hst
        · cases hst
        · cases hst
          generalize (if stale = true then c.hole else s1.keys (c.offset i (task t).key + l)) = cur at hs2 goto hnext ⊢
          by_cases e1 : cur = (task t).key
          · rw [if_pos e1] at goto ⊢
            exact goto (p := .present) rfl rfl (by simp) (by simp)
          · rw [if_neg e1] at goto hnext ⊢
            by_cases e2 : cur = c.hole
            · rw [if_pos e2] at goto hnext ⊢
              by_cases e3 : l ≤ c.threshold
              · rw [if_pos e3] at goto ⊢
                exact goto (p := .cas i l) rfl rfl (by simp) (by simp)
              · rw [if_neg e3] at hnext ⊢
                exact hnext i rfl
            · rw [if_neg e2] at goto hnext ⊢
              by_cases e3 : l + 1 = c.B
              · rw [if_pos e3] at hnext ⊢
                exact hnext i rfl
              · rw [if_neg e3] at goto ⊢
                exact goto (p := .scan i (l + 1)) rfl rfl (by simp) (by simp)
      | cas i l =>
        rw [hpc] at hst
        simp only at hst
        split at hst
        · cases hst
        · split at hst <;> cases hst
          · exact goto (p := .count _) rfl rfl (by simp) (by simp)
          · exact goto (p := .scan i l) rfl rfl (by simp) (by simp)
      | count a =>
        rw [hpc] at hst
        simp only at hst
        split at hst <;> cases hst
        · exact goto (p := .setIdx a _) rfl rfl (by simp) (by simp)
        · exact goto (p := .setIdx a _) rfl rfl (by simp) (by simp)
      | setIdx a n =>
        rw [hpc] at hst
        simp only at hst
        split at hst <;> cases hst
        exact goto (p := .setKey a n) rfl rfl (by simp) (by simp)
      | setKey a n =>
        rw [hpc] at hst
        simp only at hst
        split at hst
        · split at hst <;> cases hst
          exact goto (p := .finish a n) rfl rfl (by simp) (by simp)
        · cases hst
          exact goto (p := .finish a n) rfl rfl (by simp) (by simp)
      | finish a n =>
        rw [hpc] at hst
        simp only [Option.some.injEq] at hst
        split at hst
        · subst hst
          cases hs2
        · subst hst
          exact goto (p := .ret a n) rfl rfl (by simp) (by simp)
      | present => rw [hpc] at hst; cases hst; exact hP hs2
      | failed => rw [hpc] at hst; cases hst; exact hP hs2
      | near a n => rw [hpc] at hst; cases hst; exact hP hs2
      | ret a n => rw [hpc] at hst; cases hst; exact hP hs2
  exact key hs

/-- `resize` without refused calls: the new table has the same keys with the same numbers. -/
theorem Sound.resize {c' : Cfg K} {indices : Nat → Nat} (hB : 2 ≤ c.B) (hB' : 2 ≤ c'.B) (hh : c'.hole = c.hole) (h : Sound c s)
    (hr : Ran c' (resizeTask s.active) (c'.empty s.cnt s.active indices) s.cnt s') (hf : Finished s' s.cnt)
    (hok : ∀ t < s.cnt, result s' t ≠ some .failure) : Sound c' s' ∧ s'.cnt = s.cnt ∧ s'.active = s.active := by
  have hI := hr.inv hB'
  have hfr : s'.cnt = s.cnt ∧ s'.active = s.active := by
    obtain ⟨sched, hx, hr⟩ := hr
    obtain ⟨s2, h1, h2⟩ := bht_resize_safe (indices := indices) hB' s.active s.cnt sched
    rw [hr] at h1
    cases h1
    exact h2
  have hno : ∀ u n, (s'.pc u).no = some n → n = u :=
    hr.induct (P := fun s => ∀ u n, (s.pc u).no = some n → n = u) (by simp [Cfg.empty, Pc.no])
      fun s t stale s' _ hP hs => (resize_frame hs).2.2 hP
  have key : ∀ t, (resizeTask s.active t).key = s.active t := fun _ => rfl
  have dist : ∀ i < s.cnt, ∀ j < s.cnt, s.active i = s.active j → i = j := by
    intro i hi j hj e
    obtain ⟨h1, a, h2, h3⟩ := h.listed i hi
    obtain ⟨_, b, h5, h6⟩ := h.listed j hj
    have := h.inj hB (a := a) (b := b) (by rw [h2]; exact h1) (by rw [h2, h5, e])
    rw [← h3, ← h6, this]
  have hall : ∀ t < s.cnt, ∃ a, s'.pc t = .ret a t := by
    intro t ht
    cases hres : result s' t with
    | none => exact absurd hres (hf t ht)
    | some r =>
      cases r with
      | failure => exact absurd hres (hok t ht)
      | index m =>
        obtain ⟨a, e⟩ := result_index hres
        have := hno t m (by rw [e]; rfl)
        subst this
        exact ⟨a, e⟩
      | present =>
        exfalso
        have hp := result_present hres
        have hne : s.active t ≠ c'.hole := by rw [hh]; exact (h.listed t ht).1
        rcases hI.present t hp with e | ⟨a, ha⟩
        · exact hne e
        · obtain ⟨u, hu⟩ := hI.owner a (by rw [ha]; exact hne)
          have huN := hr.slot_lt hu
          have := dist u huN t ht ((hI.own u a hu).1.symm.trans ha)
          subst this
          rw [hp] at hu
          cases hu
  refine ⟨⟨hI.placed, ?_, ?_⟩, hfr⟩
  · intro a ha
    obtain ⟨u, hu⟩ := hI.owner a ha
    have huN := hr.slot_lt hu
    obtain ⟨b, e⟩ := hall u huN
    rw [e] at hu
    cases hu
    rw [hI.idx u a u (by rw [e]; rfl), hfr.1, hfr.2]
    exact ⟨huN, (hI.own u a (by rw [e]; rfl)).1.symm⟩
  · intro i hi
    rw [hfr.1] at hi
    obtain ⟨a, e⟩ := hall i hi
    have := hI.own i a (by rw [e]; rfl)
    rw [hfr.2]
    exact ⟨this.2, a, this.1, hI.idx i a i (by rw [e]; rfl)⟩

/-! ## Room -/

/-- Fewer calls than a bucket has slots, and numbers below the limit: none is refused. -/
theorem no_refusal {M : Nat} (hn : c.nb ≠ 0) (hI : Inv c task s) (hb : Blocked c task s) (hM : M < c.B)
    (hs : ∀ t a, (s.pc t).slot = some a → t < M) (hl : ∀ t n, (s.pc t).no = some n → n < c.limit) (htM : t < M) : result s t ≠ some .failure := by
  intro ht
  have full : ∀ l, l + 1 < c.B → s.keys (c.offset 0 (task t).key + l) ≠ c.hole ∧ s.keys (c.offset 0 (task t).key + l) ≠ (task t).key := by
    cases hpc : s.pc t with
    | failed =>
      rcases (hb t).1 hpc with e | e
      · exact absurd e hn
      · exact fun l hl => e 0 l (.inl ⟨by omega, hl⟩)
    | near a n =>
      have h1 := (hb t).2 a n hpc
      have h2 := hl t n (by rw [hpc]; rfl)
      omega
    | start => simp [result, hpc] at ht
    | scan i l => simp [result, hpc] at ht
    | cas i l => simp [result, hpc] at ht
    | count a => simp [result, hpc] at ht
    | setIdx a n => simp [result, hpc] at ht
    | setKey a n => simp [result, hpc] at ht
    | finish a n => simp [result, hpc] at ht
    | present => simp [result, hpc] at ht
    | ret a n => simp [result, hpc] at ht
  generalize c.offset 0 (task t).key = o at full
  have hch : ∃ f : Nat → Nat, ∀ l, l + 1 < c.B → (s.pc (f l)).slot = some (o + l) := by
    refine ⟨fun l => if hn : l + 1 < c.B then (hI.owner _ (full l hn).1).choose else 0, fun l hn => ?_⟩
    simp only [hn, dif_pos]
    exact (hI.owner _ (full l hn).1).choose_spec
  obtain ⟨f, hf⟩ := hch
  have hnd : (t :: (List.range (c.B - 1)).map f).Nodup := by
    refine List.nodup_cons.2 ⟨?_, List.Nodup.map_on ?_ List.nodup_range⟩
    · intro hm
      obtain ⟨l, hl, el⟩ := List.mem_map.1 hm
      have hl := List.mem_range.1 hl
      have h1 := hf l (by omega)
      rw [el] at h1
      exact (full l (by omega)).2 (hI.own t _ h1).1
    · intro x hx y hy ee
      have hx := List.mem_range.1 hx
      have hy := List.mem_range.1 hy
      have h1 := hf x (by omega)
      have h2 := hf y (by omega)
      rw [ee, h2] at h1
      have := Option.some.inj h1
      omega
  have hsub : (t :: (List.range (c.B - 1)).map f) ⊆ List.range M := by
    intro x hx
    rcases List.mem_cons.1 hx with rfl | hx
    · exact List.mem_range.2 htM
    · obtain ⟨l, hl, rfl⟩ := List.mem_map.1 hx
      have hl := List.mem_range.1 hl
      exact List.mem_range.2 (hs _ _ (hf l (by omega)))
  have := (List.subperm_of_subset hnd hsub).length_le
  simp only [List.length_cons, List.length_map, List.length_range] at this
  omega

theorem step_flag {stale : Bool} (hst : Bht.step c task s t stale = some s') : s'.success = s.success ∨ result s' t = some .failure := by
  have next : ∀ i, (s.next t i).success = s.success ∨ result (s.next t i) t = some .failure := by
    intro i
    unfold St.next
    split
    · exact .inl rfl
    · exact .inr (by simp [result, St.goto, upd_same])
  unfold Bht.step at hst
  cases hpc : s.pc t with
  | start => rw [hpc] at hst; cases hst; left; split <;> rfl
  | scan i l =>
    rw [hpc] at hst
    simp only at hst
    split at hst
    · cases hst
    · cases hst
      generalize (if stale = true then c.hole else s.keys (c.offset i (task t).key + l)) = cur
      by_cases e1 : cur = (task t).key
      · rw [if_pos e1]; exact .inl rfl
      · rw [if_neg e1]
        by_cases e2 : cur = c.hole
        · rw [if_pos e2]
          by_cases e3 : l ≤ c.threshold
          · rw [if_pos e3]; exact .inl rfl
          · rw [if_neg e3]; exact next i
        · rw [if_neg e2]
          by_cases e3 : l + 1 = c.B
          · rw [if_pos e3]; exact next i
          · rw [if_neg e3]; exact .inl rfl
  | cas i l =>
    rw [hpc] at hst
    simp only at hst
    split at hst
    · cases hst
    · split at hst <;> cases hst <;> exact .inl rfl
  | count a =>
    rw [hpc] at hst
    simp only at hst
    split at hst <;> cases hst <;> exact .inl rfl
  | setIdx a n =>
    rw [hpc] at hst
    simp only at hst
    split at hst <;> cases hst
    exact .inl rfl
  | setKey a n =>
    rw [hpc] at hst
    simp only at hst
    split at hst
    · split at hst <;> cases hst
      exact .inl rfl
    · cases hst; exact .inl rfl
  | finish a n =>
    rw [hpc] at hst
    simp only [Option.some.injEq] at hst
    split at hst
    · subst hst
      exact .inr (by simp [result, St.goto, upd_same])
    · subst hst
      exact .inl rfl
  | present => rw [hpc] at hst; cases hst; exact .inl rfl
  | failed => rw [hpc] at hst; cases hst; exact .inl rfl
  | near a n => rw [hpc] at hst; cases hst; exact .inl rfl
  | ret a n => rw [hpc] at hst; cases hst; exact .inl rfl

/-- The flag is lowered only if a call is refused. -/
theorem success_kept (hr : Ran c task s N s') (hs : s.success = true) (hno : ∀ t, result s' t ≠ some .failure) : s'.success = true := by
  have : s'.success = true ∨ ∃ t, result s' t = some .failure := by
    refine hr.induct (P := fun x => x.success = true ∨ ∃ t, result x t = some .failure) (.inl hs) ?_
    intro s1 t stale s2 _ hP hst
    rcases hP with hP | ⟨u, hu⟩
    · rcases step_flag hst with e | e
      · exact .inl (e.trans hP)
      · exact .inr ⟨t, e⟩
    · refine .inr ⟨u, ?_⟩
      rw [bht_result_stable [(t, stale)] (show run c task s1 [(t, stale)] = some s2 by simp [run, hst]) u (by rw [hu]; simp)]
      exact hu
  rcases this with h | ⟨t, h⟩
  · exact h
  · exact absurd h (hno t)

theorem Seen.room (hB : 2 ≤ c.B) (h : Seen c s old) (ht : Inserts task) (hr : Ran c task s N s') (hn : c.nb ≠ 0) (hM : s.cnt + N < c.B)
    (hl : s.cnt + N ≤ c.limit) : ∀ t, result s' t ≠ some .failure := by
  obtain ⟨hI, hMix, hid⟩ := h.ran hB ht hr
  have hc := h.cnt_le hB ht hr
  intro t
  by_cases htN : t < N
  · have hbl : Blocked c (ghostTask s.active s.cnt task) (ghost old s.cnt s') := by
      obtain ⟨sched, hx, hr⟩ := hr
      have hg := run_ghost (c := c) (act := s.active) (n0 := s.cnt) (task := task) (old := old) sched s
      rw [hr] at hg
      have hG : Ran c (ghostTask s.active s.cnt task) (ghost old s.cnt s) (s.cnt + N) (ghost old s.cnt s') := by
        refine ⟨_, ?_, hg⟩
        intro x hx'
        obtain ⟨y, hy, rfl⟩ := List.mem_map.1 hx'
        have := hx y hy
        simp only
        omega
      exact (hG.induct (P := fun x => Inv c (ghostTask s.active s.cnt task) x ∧ Blocked c (ghostTask s.active s.cnt task) x) ⟨h.inv task, h.blocked task⟩
        fun _ _ _ _ _ hi hs => ⟨hi.1.step hB hs, hi.2.step hB hi.1 hs⟩).2
    have hlt : ∀ (u : Nat), (ghost old s.cnt s').pc u ≠ .start → u < s.cnt + N := by
      intro u hu
      apply Classical.byContradiction
      intro hge
      apply hu
      simp only [ghost, if_neg (show ¬ u < s.cnt by omega)]
      exact hid _ (by omega)
    have := no_refusal (t := t + s.cnt) (M := s.cnt + N) hn hI hbl hM (fun u a ha => hlt u (by intro e; rw [e] at ha; cases ha))
      (fun u n hno => by
        rcases Nat.lt_or_ge u s.cnt with hu | hu
        · have := hMix.oldNo u n hu hno
          omega
        · have h1 := (hMix.lt u n hu hno).2
          simp only [ghost] at h1
          omega) (by omega)
    unfold result at this ⊢
    rwa [ghost_pc] at this
  · unfold result
    rw [hid t (by omega)]
    simp

theorem resize_room {indices : Nat → Nat} {act : Nat → K} (hB : 2 ≤ c.B) (hr : Ran c (resizeTask act) (c.empty n0 act indices) n0 s) (hn : c.nb ≠ 0)
    (hM : n0 < c.B) (hl : n0 ≤ c.limit) : ∀ t, result s t ≠ some .failure := by
  intro t
  by_cases htN : t < n0
  · have hno : ∀ u n, (s.pc u).no = some n → n = u :=
      hr.induct (P := fun s => ∀ u n, (s.pc u).no = some n → n = u) (by simp [Cfg.empty, Pc.no])
        fun s t stale s' _ hP hs => (resize_frame hs).2.2 hP
    refine no_refusal hn (hr.inv hB) (hr.blocked hB) hM (fun u a ha => hr.slot_lt ha) (fun u n h => ?_) htN
    obtain ⟨a, ha⟩ := no_slot h
    have := hno u n h
    have := hr.slot_lt ha
    omega
  · unfold result
    rw [hr.idle t (by omega)]
    simp

end Verif.Bht
