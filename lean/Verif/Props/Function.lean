import Verif.Proof.Function
/-! Property C30: type-erased `function`. -/
namespace Verif.Function

/-- After any history of handled calls, any number of objects: a call invokes the most recently assigned
callable, emptiness tests are right, no callable was destroyed twice or used after its destruction, and
every further handled call runs without undefined behaviour and has its specified effect.  Missing: the
calls excluded by `Handled`, on which the code fails (see below). -/
theorem function_calls_latest_partial {s : St} {a : Abs} (h : Reach Handled s a) :
    Shows s a ∧ s.destroyed.Nodup ∧ (∀ id ∈ s.destroyed, id < s.next ∧ ¬ Held s id) ∧
    ∀ op a' th, Handled a op → specStep a op = some (a', th) →
      ∃ s', step s op = some (s', th) ∧ Reach Handled s' a' := by
  have hi := (reach_inv (fun _ _ h => h) h).1
  refine ⟨shows_inv hi, hi.nodup, fun id hid => ⟨hi.old id hid, ?_⟩, ?_⟩
  · rintro ⟨i, c, hc, hm⟩
    exact ((hi.held i c hc).2 id hm).2 hid
  · intro op a' th hh hs
    obtain ⟨s', h1, -, -⟩ := step_spec hi hh hs
    exact ⟨s', h1, .call op s s' a a' th h hh hs h1⟩

/-- Two objects never hold the same callable. -/
theorem function_unshared_partial {s : St} {a : Abs} (h : Reach Handled s a) {i j : Nat}
    {c d : Callable} (hc : s.obj i = some (some c)) (hd : s.obj j = some (some d)) (hij : i ≠ j) :
    ∀ id ∈ c.ids, id ∉ d.ids :=
  (reach_inv (fun _ _ h => h) h).1.disj i j c d hc hd hij

/-- If moreover copy and move assignment are applied to empty objects only, each callable object created
is destroyed exactly once: at any time it is either destroyed (once) or held; when no object is left, all
have been destroyed.  Missing: copy and move assignment to an object that holds a callable. -/
theorem function_destroys_once_partial {s : St} {a : Abs}
    (h : Reach (fun a op => Handled a op ∧ Frugal a op) s a) :
    s.destroyed.Nodup ∧ (∀ id, id < s.next → (id ∈ s.destroyed ↔ ¬ Held s id)) ∧
    ((∀ i, a i = none) → ∀ id, id ∈ s.destroyed ↔ id < s.next) := by
  obtain ⟨hi, hk⟩ := reach_inv (P := fun a op => Handled a op ∧ Frugal a op) (fun _ _ h => h.1) h
  have hk := hk (fun _ _ h => h.2)
  refine ⟨hi.nodup, fun id hid => ⟨?_, fun hn => ?_⟩, fun hall id => ⟨hi.old id, fun hid => ?_⟩⟩
  · rintro hid ⟨i, c, hc, hm⟩
    exact ((hi.held i c hc).2 id hm).2 hid
  · rcases hk id hid with h1 | h1
    · exact h1
    · exact absurd h1 hn
  · rcases hk id hid with h1 | ⟨i, c, hc, -⟩
    · exact h1
    · rw [dead_of hi (hall i)] at hc
      cases hc

/-- Several steps. -/
def run (s : St) : List Op → Option St
  | [] => some s
  | op :: ops => (step s op).bind fun r => run r.1 ops

/-- The specification of several steps. -/
def specRun (a : Abs) : List Op → Option Abs
  | [] => some a
  | op :: ops => (specStep a op).bind fun r => specRun r.1 ops

/-- Copy assignment to an object that holds a callable: after both objects are gone, the callable that
was replaced has never been destroyed. -/
theorem copy_assign_leaks_violated :
    ∃ s, run init [.ctorFrom 0 10 true false, .ctorFrom 1 20 true false, .copyAssign 0 1,
      .dtor 0, .dtor 1] = some s ∧ (∀ i < 2, s.obj i = none) ∧ 0 < s.next ∧ 0 ∉ s.destroyed :=
  ⟨_, rfl, by decide, by decide, by decide⟩

/-- The same for move assignment. -/
theorem move_assign_leaks_violated :
    ∃ s, run init [.ctorFrom 0 10 true false, .ctorFrom 1 20 true false, .moveAssign 0 1,
      .dtor 0, .dtor 1] = some s ∧ (∀ i < 2, s.obj i = none) ∧ 0 < s.next ∧ 0 ∉ s.destroyed :=
  ⟨_, rfl, by decide, by decide, by decide⟩

/-- `f = f` with non-const `f` copies a callable that was just destroyed. -/
theorem self_assign_violated :
    run init [.ctorFrom 0 10 true false, .lvalAssign 0 0] = none ∧
    (specRun (fun _ => none) [.ctorFrom 0 10 true false, .lvalAssign 0 0]).isSome = true := by
  decide

/-- An assignment that throws leaves a destroyed callable behind; the destructor destroys it again. -/
theorem throwing_assign_violated :
    run init [.ctorFrom 0 10 true false, .assign 0 20 true true, .dtor 0] = none ∧
    (specRun (fun _ => none) [.ctorFrom 0 10 true false, .assign 0 20 true true, .dtor 0]).isSome
      = true := by
  decide

/-- `f = g` with an empty non-const `g`: `f` claims not to be empty. -/
theorem assign_empty_violated :
    ∃ s a, run init [.ctor 0, .ctor 1, .lvalAssign 0 1] = some s ∧
      specRun (fun _ => none) [.ctor 0, .ctor 1, .lvalAssign 0 1] = some a ∧
      a 0 = some none ∧ test 0 s = some true :=
  ⟨_, _, rfl, rfl, by decide, by decide⟩

/-! A non-trivial history satisfying the hypotheses. -/

example : ∃ s a, Reach (fun a op => Handled a op ∧ Frugal a op) s a ∧
    call 1 s = some (some 10) ∧ call 2 s = some (some 10) ∧ s.next = 4 := by
  refine ⟨_, _, .call (.moveCtor 2 0) _ _ _ _ _ (.call (.lvalAssign 1 0) _ _ _ _ _
    (.call (.ctorFrom 1 20 false false) _ _ _ _ _ (.call (.ctorFrom 0 10 true false) _ _ _ _ _ .init
      ⟨trivial, trivial⟩ rfl rfl) ⟨trivial, trivial⟩ rfl rfl)
      ⟨⟨by decide, 10, by decide⟩, trivial⟩ rfl rfl) ⟨trivial, trivial⟩ rfl rfl, by decide, by decide, by decide⟩

end Verif.Function
