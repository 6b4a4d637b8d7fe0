import Verif.Proof.CopyPtr

/-!
Properties of `copyable_ptr` (C108).
-/
namespace Verif.CopyPtr

variable {α : Type}

/-- Any program of copies, moves, swaps, resets, releases and writes is undefined exactly when the program on plain values lacks a value, and otherwise every
variable reads as the plain value: copies are deep, so that writes through one are never seen through another; assignment to itself keeps the value. -/
theorem values_exact (os : List (Op α)) : (run os (init α)).map St.deref = specRun os fun _ => none := (run_inv os init_inv).1

/-- Never do two variables have the same object, and all pointers that are not null can be read. -/
theorem owners_separate (os : List (Op α)) {s : St α} (h : run os (init α) = some s) :
    (∀ v w, v ≠ w → s.ptr v ≠ none → s.ptr v ≠ s.ptr w) ∧ ∀ v, s.ptr v ≠ none → s.deref v ≠ none := by
  have hi := (run_inv os init_inv).2 s h
  constructor
  · intro v w hn hv e
    obtain ⟨a, ha⟩ := Option.ne_none_iff_exists'.1 hv
    exact hn (hi.inj v w a ha (e ▸ ha))
  · intro v hv
    obtain ⟨a, ha⟩ := Option.ne_none_iff_exists'.1 hv
    simpa [St.deref, ha] using hi.live v a ha

/-- Nothing leaks and nothing is deleted early: the objects that exist are those of the variables and those that were released. -/
theorem objects_exact (os : List (Op α)) {s : St α} (h : run os (init α) = some s) (a : Nat) :
    s.heap a ≠ none ↔ (∃ v, s.ptr v = some a) ∨ a ∈ s.released := by
  have hi := (run_inv os init_inv).2 s h
  exact ⟨hi.owned a, fun e => e.elim (fun ⟨v, hv⟩ => hi.live v a hv) fun hr => (hi.free a hr).1⟩

/-- What was released stays with the user: `release` returns the address of the object, and no later operation deletes it. -/
theorem released_kept (os : List (Op α)) {s t : St α} (h : run os (init α) = some s) (o : Op α) (ht : step s o = some t) :
    (∀ a ∈ s.released, a ∈ t.released) ∧ ∀ v a, o = .release v → s.ptr v = some a → a ∈ t.released ∧ t.heap a = s.heap a := by
  have hi := (run_inv os init_inv).2 s h
  have key : ∀ r : St α, step s o = some r → ∀ q, r.released = q → t.released = q := fun r e q hq => by
    rw [ht] at e; rw [Option.some.inj e]; exact hq
  cases o with
  | make v x =>
    obtain ⟨r, h1, _, h3, _⟩ := reset_new hi v x
    exact ⟨fun a ha => by rw [key r h1 _ h3]; exact ha, fun _ _ e => by cases e⟩
  | copy dst src =>
    cases e : s.deref src with
    | none => simp [step, e] at ht
    | some x =>
      obtain ⟨r, h1, _, h3, _⟩ := reset_new hi dst x
      exact ⟨fun a ha => by rw [key r (by simpa [step, e] using h1) _ h3]; exact ha, fun _ _ e => by cases e⟩
  | move dst src =>
    obtain ⟨r, h1, _, h3, _⟩ := move_step hi dst src
    exact ⟨fun a ha => by rw [key r h1 _ h3]; exact ha, fun _ _ e => by cases e⟩
  | reset v =>
    obtain ⟨r, h1, _, h3, _⟩ := reset_null hi v
    exact ⟨fun a ha => by rw [key r h1 _ h3]; exact ha, fun _ _ e => by cases e⟩
  | release v =>
    obtain ⟨r, h1, _, h3, h4, _⟩ := release_step hi v
    have : t = r := Option.some.inj (ht.symm.trans h1)
    subst this
    refine ⟨fun a ha => by rw [h3]; exact List.mem_append_right _ ha, fun w a e hp => ?_⟩
    cases e
    exact ⟨by rw [h3, hp]; simp, by rw [h4]⟩
  | swap v w =>
    obtain ⟨r, h1, _, h3, _⟩ := swap_step hi v w
    exact ⟨fun a ha => by rw [key r h1 _ h3]; exact ha, fun _ _ e => by cases e⟩
  | write v x =>
    have hv : s.deref v ≠ none := fun e => by
      rcases step_exact hi (.write v x) with ⟨_, h2⟩ | ⟨r, _, _, h3⟩
      · rw [ht] at h2; cases h2
      · simp [specStep, e] at h3
    obtain ⟨r, h1, _, h3, _⟩ := write_step hi v x hv
    exact ⟨fun a ha => by rw [key r h1 _ h3]; exact ha, fun _ _ e => by cases e⟩

/-- Copying a pointer that is not null always works, also onto itself or onto a variable that has an object. -/
theorem copy_partial (os : List (Op α)) {s : St α} (h : run os (init α) = some s) (dst src : Nat) (hs : s.ptr src ≠ none) :
    ∃ t, step s (.copy dst src) = some t ∧ t.deref dst = s.deref src ∧ ∀ w, w ≠ dst → t.deref w = s.deref w := by
  have hi := (run_inv os init_inv).2 s h
  have hv := (owners_separate os h).2 src hs
  rcases step_exact hi (.copy dst src) with ⟨h1, _⟩ | ⟨t, h1, _, h3⟩
  · simp [specStep, hv] at h1
  · simp only [specStep, hv, if_false, Option.some.injEq] at h3
    exact ⟨t, h1, by rw [← h3]; simp, fun w hw => by rw [← h3]; simp [hw]⟩

/-- The code copies a null pointer by reading through it: two null pointers suffice, which `copyable_ptr` makes by default. -/
theorem copy_null_violated : ∃ dst src, (init α).ptr src = none ∧ (step (init α) (.copy dst src)).isNone = true := ⟨0, 1, rfl, rfl⟩

example : (run [Op.make 0 5, .copy 1 0, .write 0 7, .copy 0 0, .move 2 0, .release 1, .make 1 9, .swap 1 2] (init Nat)).map
    (fun s => (s.deref 0, s.deref 1, s.deref 2, s.released)) = some (none, some 7, some 9, [1]) := by decide

end Verif.CopyPtr
