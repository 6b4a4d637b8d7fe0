import Verif.Proof.Resource

/-!
C57: recorded allocations are freed once.
-/
namespace Verif.Resource

variable {arg : Nat → Nat} {map : Nat → Option Rec} {t : Nat}

/-- Any number of calls with different arguments, interleaved in any way: no undefined behaviour; nothing
is released twice; a call that has returned has released exactly the recorded block and removed the record;
a call that threw was given an address without a record; other records are kept. Missing: calls with the
same argument (`resource_double_free_violated`). -/
theorem resource_deallocate_partial (T : Nat → Prop) (hT : ∀ t t', T t → T t' → arg t = arg t' → t = t') (l : List Nat)
    (hl : ∀ t ∈ l, T t) :
    ∃ s, run arg l (begin map) = some s ∧ (s.freed.map Prod.fst).Nodup ∧
      (∀ t, T t → s.pc t = .done → s.map (arg t) = none ∧ ∃ r, map (arg t) = some r ∧ (arg t, r) ∈ s.freed) ∧
      (∀ t, T t → s.pc t = .bad → map (arg t) = none) ∧
      (∀ p r, (p, r) ∈ s.freed → map p = some r ∧ ∃ t, T t ∧ arg t = p) ∧
      ∀ p, (∀ t, T t → arg t ≠ p) → s.map p = map p := by
  obtain ⟨s, h1, h2⟩ := run_inv hT l (begin map) hl begin_inv
  refine ⟨s, h1, h2.nodup, ?_, h2.bad, ?_, ?_⟩
  · intro t ht hd
    obtain ⟨r, hr⟩ := Option.isSome_iff_exists.1 (h2.ok t ht (by rw [hd]; simp) (by rw [hd]; simp))
    exact ⟨h2.gone t ht hd, r, hr, (h2.freed _ _).2 ⟨t, ht, by rw [hd]; rfl, rfl, hr⟩⟩
  · intro p r hp
    obtain ⟨t, q1, -, q3, q4⟩ := (h2.freed _ _).1 hp
    exact ⟨q4, t, q1, q3⟩
  · intro p hp
    exact h2.keep p fun t ht _ e => hp t ht e.symm

/-- A call that runs alone. -/
theorem resource_alone {s : St} (hp : s.pc t = .find) (ho : s.owner = none)
    (hf : ∀ r, (arg t, r) ∈ s.freed → s.map (arg t) = none) :
    (∀ r, s.map (arg t) = some r → ∃ s', run arg (List.replicate 6 t) s = some s' ∧ s'.pc t = .done ∧ s'.owner = none ∧
      s'.freed = (arg t, r) :: s.freed ∧ s'.map = upd s.map (arg t) none ∧ ∀ q, q ≠ t → s'.pc q = s.pc q) ∧
      (s.map (arg t) = none → ∃ s', run arg (List.replicate 6 t) s = some s' ∧ s'.pc t = .bad ∧ s'.owner = none ∧
        s'.freed = s.freed ∧ s'.map = s.map ∧ ∀ q, q ≠ t → s'.pc q = s.pc q) := by
  constructor
  · intro r hr
    have hany : (s.freed.any (·.1 == arg t)) = false := by
      rw [List.any_eq_false]
      intro x hx hx'
      have e : x.1 = arg t := by simpa using hx'
      have := hf x.2 (by rw [← e]; exact hx)
      rw [hr] at this; cases this
    refine ⟨⟨upd s.map (arg t) none, none, (arg t, r) :: s.freed,
      upd (upd (upd (upd (upd (upd s.pc t .lock) t .get) t .free) t .unlock) t .erase) t .done⟩, ?_, upd_same _ _ _, rfl, rfl, rfl, ?_⟩
    · simp [List.replicate, run, step, hp, ho, hr, St.goto, hany]
    · intro q hq
      simp [upd, hq]
  · intro hr
    refine ⟨{ s with pc := upd s.pc t .bad }, ?_, upd_same _ _ _, ho, rfl, rfl, ?_⟩
    · simp [List.replicate, run, step, hp, hr, St.goto]
    · intro q hq
      simp [upd, hq]

/-- Calls made one after the other, with any arguments: nothing is released twice, every recorded block
that some call was given is released, and a repeated call throws. -/
theorem resource_sequential_partial (arg : Nat → Nat) (map : Nat → Option Rec) : ∀ (n : Nat),
    ∃ s, run arg ((List.range n).flatMap fun t => List.replicate 6 t) (begin map) = some s ∧ s.owner = none ∧
      (s.freed.map Prod.fst).Nodup ∧
      (∀ p r, (p, r) ∈ s.freed ↔ map p = some r ∧ ∃ t < n, arg t = p) ∧
      (∀ p, s.map p = if ∃ t < n, arg t = p then none else map p) ∧
      (∀ t < n, s.pc t = if (map (arg t)).isSome ∧ ∀ t' < t, arg t' ≠ arg t then .done else .bad) ∧
      ∀ t, n ≤ t → s.pc t = .find := by
  have app : ∀ (l l' : List Nat) (s : St), run arg (l ++ l') s = (run arg l s).bind (run arg l') := by
    intro l
    induction l with
    | nil => intro l' s; rfl
    | cons t l ih =>
      intro l' s
      simp only [List.cons_append, run]
      cases step arg s t with
      | none => rfl
      | some s' => exact ih l' s'
  intro n
  induction n with
  | zero => exact ⟨_, rfl, rfl, List.nodup_nil, by simp [begin], by simp [begin], by simp, fun _ _ => rfl⟩
  | succ n ih =>
    obtain ⟨s, h1, h2, h3, h4, h5, h6, h7⟩ := ih
    have hstep : ∀ s', run arg (List.replicate 6 n) s = some s' →
        run arg ((List.range (n + 1)).flatMap fun t => List.replicate 6 t) (begin map) = some s' := by
      intro s' h
      rw [List.range_succ, List.flatMap_append, app, h1]
      simpa using h
    obtain ⟨a1, a2⟩ := resource_alone (arg := arg) (h7 n (Nat.le_refl n)) h2 (by
      intro r hr
      rw [h5, if_pos ((h4 _ _).1 hr).2])
    by_cases hseen : ∃ t < n, arg t = arg n
    · obtain ⟨s', b1, b2, b3, b4, b5, b6⟩ := a2 (by rw [h5, if_pos hseen])
      refine ⟨s', hstep s' b1, b3, by rw [b4]; exact h3, ?_, ?_, ?_, ?_⟩
      · intro p r
        rw [b4, h4]
        refine and_congr_right fun _ => ⟨fun ⟨t, x, y⟩ => ⟨t, by omega, y⟩, fun ⟨t, x, y⟩ => ?_⟩
        by_cases e : t = n
        · subst e; obtain ⟨t', x', y'⟩ := hseen; exact ⟨t', x', y'.trans y⟩
        · exact ⟨t, by omega, y⟩
      · intro p
        rw [b5, h5]
        congr 1
        refine propext ⟨fun ⟨t, x, y⟩ => ⟨t, by omega, y⟩, fun ⟨t, x, y⟩ => ?_⟩
        by_cases e : t = n
        · subst e; obtain ⟨t', x', y'⟩ := hseen; exact ⟨t', x', y'.trans y⟩
        · exact ⟨t, by omega, y⟩
      · intro t ht
        by_cases e : t = n
        · subst e
          rw [b2, if_neg]
          rintro ⟨-, h⟩
          obtain ⟨t', x', y'⟩ := hseen
          exact h t' x' y'
        · rw [b6 t e]; exact h6 t (by omega)
      · intro t ht
        rw [b6 t (by omega)]; exact h7 t (by omega)
    · have hm : s.map (arg n) = map (arg n) := by rw [h5, if_neg hseen]
      cases hr : map (arg n) with
      | none =>
        obtain ⟨s', b1, b2, b3, b4, b5, b6⟩ := a2 (by rw [hm, hr])
        refine ⟨s', hstep s' b1, b3, by rw [b4]; exact h3, ?_, ?_, ?_, ?_⟩
        · intro p r
          rw [b4, h4]
          refine and_congr_right fun hpr => ⟨fun ⟨t, x, y⟩ => ⟨t, by omega, y⟩, fun ⟨t, x, y⟩ => ⟨t, ?_, y⟩⟩
          have : t ≠ n := by rintro rfl; rw [y, hpr] at hr; cases hr
          omega
        · intro p
          rw [b5, h5]
          by_cases hp : ∃ t < n, arg t = p
          · obtain ⟨t, x, y⟩ := hp
            rw [if_pos ⟨t, x, y⟩, if_pos ⟨t, by omega, y⟩]
          · rw [if_neg hp]
            split
            · next h =>
              obtain ⟨t, x, y⟩ := h
              have : t = n := Decidable.byContradiction fun e => hp ⟨t, by omega, y⟩
              subst this
              rw [← y]; exact hr
            · rfl
        · intro t ht
          by_cases e : t = n
          · subst e; rw [b2, hr]; simp
          · rw [b6 t e]; exact h6 t (by omega)
        · intro t ht
          rw [b6 t (by omega)]; exact h7 t (by omega)
      | some r0 =>
        obtain ⟨s', b1, b2, b3, b4, b5, b6⟩ := a1 r0 (by rw [hm, hr])
        refine ⟨s', hstep s' b1, b3, ?_, ?_, ?_, ?_, ?_⟩
        · rw [b4]
          refine List.nodup_cons.2 ⟨?_, h3⟩
          intro hmem
          obtain ⟨x, hx, hx'⟩ := List.mem_map.1 hmem
          obtain ⟨-, t, q1, q2⟩ := (h4 x.1 x.2).1 hx
          exact hseen ⟨t, q1, q2.trans hx'⟩
        · intro p r
          rw [b4, List.mem_cons, h4]
          constructor
          · rintro (q | ⟨q1, t, x, y⟩)
            · cases q; exact ⟨hr, n, by omega, rfl⟩
            · exact ⟨q1, t, by omega, y⟩
          · rintro ⟨q1, t, x, y⟩
            by_cases e : t = n
            · subst e
              left
              rw [← y, hr] at q1
              cases q1
              rw [y]
            · exact .inr ⟨q1, t, by omega, y⟩
        · intro p
          rw [b5]
          by_cases e : p = arg n
          · subst e
            rw [upd_same, if_pos ⟨n, by omega, rfl⟩]
          · rw [upd_ne _ _ e, h5]
            congr 1
            refine propext ⟨fun ⟨t, x, y⟩ => ⟨t, by omega, y⟩, fun ⟨t, x, y⟩ => ⟨t, ?_, y⟩⟩
            have : t ≠ n := by rintro rfl; exact e y.symm
            omega
        · intro t ht
          by_cases e : t = n
          · subst e
            rw [b2, if_pos]
            exact ⟨by rw [hr]; rfl, fun t' x y => hseen ⟨t', x, y⟩⟩
          · rw [b6 t e]; exact h6 t (by omega)
        · intro t ht
          rw [b6 t (by omega)]; exact h7 t (by omega)

/-- Two calls with one argument: the second looks the record up before the first has erased it and releases
the memory again. -/
theorem resource_double_free_violated :
    run (fun _ => 7) [0, 0, 0, 0, 0, 1, 1, 1, 1] (begin fun _ => some ⟨0, 64, 8⟩) = none := by decide +kernel

/-- Or the record is erased while the second call reads through the reference. -/
theorem resource_dangling_violated :
    run (fun _ => 7) [0, 0, 0, 0, 0, 1, 1, 1, 0, 1] (begin fun _ => some ⟨0, 64, 8⟩) = none := by decide +kernel

example : ∃ s, run (fun t => t % 3) [0, 1, 1, 0, 1, 0, 1, 2, 1, 0, 1, 0, 0, 0, 0] (begin fun p => if p = 2 then none else some ⟨0, p, 8⟩) =
    some s ∧ s.pc 0 = .done ∧ s.pc 1 = .done ∧ s.pc 2 = .bad ∧ s.freed = [(0, ⟨0, 0, 8⟩), (1, ⟨0, 1, 8⟩)] := by
  exact ⟨_, rfl, by decide, by decide, by decide, rfl⟩

end Verif.Resource
