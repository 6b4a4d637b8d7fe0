import Verif.Proof.Owner

/-!
Owners are optional values: no undefined behaviour, no leak, no double destruction, for the operations the class implements (C73).
-/
namespace Verif.Owner

variable {V : Type} {c : Cls} {t : Ty V} {a : Abs V}

/-- The operations that work: bytewise copies of owners only for types that permit it; if the type cannot be assigned, no assignment over a
value from this value itself and none that throws. -/
def Abs.Safe (c : Cls) (a : Abs V) : Op V → Prop
  | .mkCopy _ | .copyOwner _ _ => c.trivial = true
  | .assign move i src th =>
    c.default = true ∨ (if move then c.moveAssign else c.copyAssign) = true ∨ a.arg (.elem i) = none ∨ (th = false ∧ src ≠ .elem i)
  | .moveOwner i j th => c.default = true ∨ c.moveAssign = true ∨ a.arg (.elem i) = none ∨ a.arg (.elem j) = none ∨ i = j ∨ th = false
  | _ => True

theorem bind_append {x : Option (Option V)} {i : Nat} {y : Option V} (h : a[i]?.bind id = some y) : (a ++ [x])[i]?.bind id = some y := by
  have := (List.getElem?_eq_some_iff.1 (getElem_of_bind h)).1
  rw [List.getElem?_append_left this, h]

theorem bind_last {x : Option V} : (a ++ [some x])[a.length]?.bind id = some x := by simp

theorem arg_append {x : Option (Option V)} {src : Src V} (h : (a.arg src).isSome) : Abs.arg (a ++ [x]) src = a.arg src := by
  cases src with
  | ext v => rfl
  | elem j =>
    simp only [Abs.arg] at h ⊢
    cases h' : a[j]?.bind id with
    | none => rw [h'] at h; cases h
    | some y => rw [bind_append h']

theorem arg_elem {i : Nat} : (a.arg (.elem i)) = (a[i]?.bind id).bind id := rfl

theorem full_set {i : Nat} {x : Option (Option V)} (hf : a.Full c) (h : c.default = true → x ≠ some none) : Abs.Full c (a.set i x) := by
  intro hd k
  rw [List.getElem?_set]
  split
  · split
    · intro e; exact h hd (Option.some.inj e)
    · simp
  · exact hf hd k

theorem full_append {x : Option (Option V)} (hf : a.Full c) (h : c.default = true → x ≠ some none) : Abs.Full c (a ++ [x]) := by
  intro hd k
  by_cases hk : k < a.length
  · rw [List.getElem?_append_left hk]; exact hf hd k
  · rw [List.getElem?_append_right (by omega)]
    by_cases h0 : k - a.length = 0
    · rw [h0]; intro e; exact h hd (Option.some.inj e)
    · rw [List.getElem?_eq_none (by simp; omega)]; simp

theorem full_moveFrom (src : Src V) (hf : a.Full c) : Abs.Full c (a.moveFrom t src) := by
  intro hd k e
  have e2 : (a.moveFrom t src)[k]?.bind id = some none := by rw [e]; rfl
  rw [moveFrom_get] at e2
  cases h : a[k]?.bind id with
  | none => rw [h] at e2; cases e2
  | some y =>
    cases y with
    | none => exact hf hd k (getElem_of_bind h)
    | some v => rw [h] at e2; simp at e2; split at e2 <;> cases e2

theorem full_put {i : Nat} {src : Src V} (hf : a.Full c) (move : Bool) : Abs.Full c (a.put t move i src) := by
  rw [Abs.put]
  cases a.arg src with
  | none => exact hf
  | some v =>
    apply full_set
    · split
      · exact full_moveFrom src hf
      · exact hf
    · simp

/-- The owner under construction may be empty. -/
theorem full_put_last {src : Src V} (hf : a.Full c) (move : Bool) (hs : (a.arg src).isSome) (hl : src ≠ .elem a.length) :
    Abs.Full c (Abs.put t (a ++ [some none]) move a.length src) := by
  obtain ⟨v, hv⟩ := Option.isSome_iff_exists.1 hs
  have h : Abs.put t (a ++ [some none]) move a.length src = Abs.put t (a ++ [some (some v)]) move a.length src := by
    rw [Abs.put, Abs.put, arg_append hs, arg_append hs, hv]
    have e : (a ++ [some none] : Abs V) = (a ++ [some (some v)]).set a.length (some none) := by simp
    cases move with
    | false => simp
    | true => simp only [if_true]; rw [e, moveFrom_set hl, List.set_set]
  rw [h]
  exact full_put (full_append hf (by simp)) move

theorem arg_lt {j : Nat} (h : (a.arg (.elem j)).isSome) : j < a.length := by
  rw [arg_elem] at h
  cases h' : a[j]?.bind id with
  | none => rw [h'] at h; cases h
  | some y => exact (List.getElem?_eq_some_iff.1 (getElem_of_bind h')).1

theorem src_ne {src : Src V} (h : (a.arg src).isSome) : src ≠ .elem a.length := by
  intro e; subst e; exact Nat.lt_irrefl _ (arg_lt h)

theorem world_append (x : Option (Option V)) : (⟨a.world.owners ++ [x.map conc], 0⟩ : World V) = Abs.world (a ++ [x]) := by simp [Abs.world]

theorem world_add_raw (b : Bool) : a.world.add ⟨.raw, b⟩ = if b then a.world.add ⟨.raw, true⟩ else Abs.world (a ++ [some none]) := by
  cases b with
  | true => rfl
  | false => exact world_add none

/-- The constructors from objects: the owner is empty but, in the specialisation, counts as active. -/
theorem put_add (b : Bool) {src : Src V} (hs : (a.arg src).isSome) (move th : Bool) :
    built a.world (put t move true (a.world.add ⟨.raw, b⟩) a.world.owners.length src th)
      = some (th, if th then Abs.world (a ++ [none]) else Abs.world (Abs.put t (a ++ [some none]) move a.length src)) := by
  have hl : a.world.owners.length = a.length := by simp [Abs.world]
  obtain ⟨v, hv⟩ := Option.isSome_iff_exists.1 hs
  have key : put t move true (a.world.add ⟨.raw, b⟩) a.length src th
      = (put t move true (a.world.add ⟨.raw, false⟩) a.length src th).map fun p => if p.1 then (true, a.world.add ⟨.raw, b⟩) else p := by
    have hr : ∀ b, src.read (a.world.add ⟨.raw, b⟩) = some v := by
      intro b
      rw [← hv, ← src_read]
      cases src with
      | ext v => rfl
      | elem j =>
        have hj := arg_lt hs
        have : j < a.world.owners.length := by omega
        simp only [Src.read, World.get, World.add, List.getElem?_append_left this]
    have hlv : ∀ b, src.leave t (a.world.add ⟨.raw, b⟩) = (src.leave t a.world).add ⟨.raw, b⟩ := by
      intro b
      cases src with
      | ext v => rfl
      | elem j =>
        have hj := arg_lt hs
        have : j < a.world.owners.length := by omega
        have e : (a.world.add ⟨.raw, b⟩).get j = a.world.get j := by simp only [World.get, World.add, List.getElem?_append_left this]
        simp only [Src.leave, e]
        cases a.world.get j with
        | none => rfl
        | some o => simp only [World.set, World.add]; rw [List.set_append_left _ _ this]
    have hc : ∀ (x : World V), x.owners.length = a.length → create (x.add ⟨.raw, b⟩) a.length v = create (x.add ⟨.raw, false⟩) a.length v := by
      intro x hx
      simp [create, World.get, World.add, World.set, ← hx, Mem.lost]
    have hlen : (src.leave t a.world).owners.length = a.length := by
      rw [src_leave]; cases src <;> simp [Abs.world, Abs.moveFrom]
    rw [put, put, hr, hr]
    cases th <;> cases move <;> simp only [Option.bind_some, Bool.false_eq_true, if_false, if_true, Option.map_some, Option.map_map, Function.comp_def]
    · rw [hc _ hl]
    · rw [hlv, hlv, hc _ hlen]
  have e0 : a.world.add ⟨.raw, false⟩ = Abs.world (a ++ [some none]) := world_add none
  rw [hl, key, e0, put_create bind_last (by rw [arg_append hs]; exact hs)]
  cases th with
  | false => rfl
  | true => simp only [Option.map_some, if_true, built]; rw [← world_append]; rfl

/-- Assigning from an object. -/
theorem assign_spec (hf : a.Full c) {move : Bool} {i : Nat} {src : Src V} {th : Bool} (hi : a.Exists i) (hs : (a.arg src).isSome)
    (h : c.default = true ∨ (if move then c.moveAssign else c.copyAssign) = true ∨ a.arg (.elem i) = none ∨ (th = false ∧ src ≠ .elem i)) :
    assign c t move a.world i src th = some (th, if th then a.world else Abs.world (Abs.put t a move i src)) := by
  obtain ⟨x, hx⟩ := Option.isSome_iff_exists.1 hi
  rw [assign, world_get, hx]
  simp only [Option.map_some, Option.bind_some]
  cases hd : c.default with
  | true =>
    cases x with
    | none => exact absurd (getElem_of_bind hx) (hf hd i)
    | some v => rw [if_pos rfl, put_store hx hs]
  | false =>
    rw [if_neg (by simp)]
    by_cases hm : (if move then c.moveAssign else c.copyAssign) = true
    · rw [if_pos hm]
      cases x with
      | none => exact put_create hx hs move th
      | some v => exact put_store hx hs move th
    · rw [if_neg hm]
      cases x with
      | none => exact put_create hx hs move th
      | some v =>
        have h' : th = false ∧ src ≠ .elem i := by
          rcases h with h | h | h | h
          · rw [hd] at h; cases h
          · exact absurd h hm
          · rw [arg_elem, hx] at h; cases h
          · exact h
        rw [h'.1]
        show (destroy a.world i).bind _ = _
        rw [destroy_some hx, Option.bind_some, put_destroy hx hs h'.2]; rfl

theorem arg_some {j : Nat} {v : V} (h : a[j]?.bind id = some (some v)) : a.arg (.elem j) = some v := by rw [arg_elem, h]; rfl

/-- Resetting an owner. -/
theorem reset_spec {i : Nat} (hi : a.Exists i) : reset a.world i = some (Abs.world (a.set i (some none))) := by
  obtain ⟨x, hx⟩ := Option.isSome_iff_exists.1 hi
  rw [reset, world_get, hx]
  cases x with
  | none =>
    rw [set_self _ _ _ (getElem_of_bind hx)]; rfl
  | some v =>
    simp only [Option.map_some, Option.bind_some, conc, if_true]
    rw [destroy_some hx, Option.bind_some, get_set _ (by rw [world_get, hx]; rfl), Option.map_some, set_set]
    exact congrArg some (world_set i (some none))

/-- One operation. -/
theorem step_spec (hf : a.Full c) (op : Op V) (ha : a.Allowed c op) (hs : a.Safe c op) :
    step c t a.world op = some (a.throws c op, (a.next c t op).world) ∧ (a.next c t op).Full c := by
  cases op with
  | mkDefault th =>
    rcases Bool.eq_false_or_eq_true c.default with hd | hd
    · cases th with
      | false =>
        have e : a.next c t (.mkDefault false) = a ++ [some (some t.init)] := by simp [Abs.next, Abs.throws, Abs.step, hd]
        rw [e, step, mkDefault, if_pos hd, put_add true (by rfl)]
        refine ⟨?_, full_append hf (by simp)⟩
        simp [Abs.throws, Abs.put, Abs.arg]
      | true =>
        have e : a.next c t (.mkDefault true) = a ++ [none] := by simp [Abs.next, Abs.throws, hd]
        rw [e, step, mkDefault, if_pos hd, put_add true (by rfl)]
        exact ⟨by simp [Abs.throws, hd], full_append hf (by simp)⟩
    · have e : a.next c t (.mkDefault th) = a ++ [some none] := by simp [Abs.next, Abs.throws, Abs.step, hd]
      rw [e, step, mkDefault, if_neg (by simp [hd]), world_add_raw]
      exact ⟨by simp [Abs.throws, hd], full_append hf (by rw [hd]; rintro ⟨⟩)⟩
  | mkFrom move src th =>
    have hs' : (a.arg src).isSome := ha
    simp only [step, mkFrom, Abs.throws, Abs.next, Abs.step]
    rw [put_add _ hs']
    cases th with
    | false => exact ⟨rfl, full_put_last hf move hs' (src_ne hs')⟩
    | true => exact ⟨rfl, full_append hf (by simp)⟩
  | mkMove j th =>
    obtain ⟨x, hx⟩ := Option.isSome_iff_exists.1 (show a.Exists j from ha)
    simp only [step, mkMove]
    cases x with
    | none =>
      have hd : c.default = false := by
        cases hd : c.default with
        | false => rfl
        | true => exact absurd (getElem_of_bind hx) (hf hd j)
      have h0 : a.arg (.elem j) = none := by rw [arg_elem, hx]; rfl
      have h1 : Abs.arg (a ++ [some none]) (.elem j) = none := by rw [arg_elem, bind_append hx]; rfl
      have ht : a.throws c (.mkMove j th) = false := by simp [Abs.throws, h0]
      have e : a.next c t (.mkMove j th) = a ++ [some none] := by simp [Abs.next, ht, Abs.step, Abs.put, h1]
      rw [ht, e, if_neg (by simp [hd]), world_get, hx]
      refine ⟨?_, full_append hf (by rw [hd]; rintro ⟨⟩)⟩
      simp only [Option.map_some, Option.bind_some, conc, Bool.false_eq_true, if_false]
      rw [world_add_raw]; rfl
    | some v =>
      have h0 := arg_some hx
      have hs' : (a.arg (.elem j)).isSome := by rw [h0]; rfl
      have e : (if c.default = true then mkFrom c t true a.world (.elem j) th
          else (a.world.get j).bind fun o =>
            if o.active = true then built a.world (assign c t true (a.world.add ⟨.raw, false⟩) a.world.owners.length (.elem j) th)
            else some (false, a.world.add ⟨.raw, false⟩))
          = some (th, if th then Abs.world (a ++ [none]) else Abs.world (Abs.put t (a ++ [some none]) true a.length (.elem j))) := by
        cases hd : c.default with
        | true => rw [if_pos rfl, mkFrom, put_add _ hs']
        | false =>
          rw [if_neg (by simp), world_get, hx]
          simp only [Option.map_some, Option.bind_some, conc, if_true]
          rw [← put_add false hs' true th]
          congr 1
          have hl : a.world.owners.length = a.length := by simp [Abs.world]
          have hg : (a.world.add ⟨.raw, false⟩).get a.length = some ⟨.raw, false⟩ := by simp [World.get, World.add, ← hl]
          rw [assign, hl, hg, Option.bind_some, hd, if_neg (by simp)]
          simp only [if_true]
          cases c.moveAssign <;> rfl
      have ht : a.throws c (.mkMove j th) = th := by simp [Abs.throws, h0]
      rw [e, ht]
      cases th with
      | false =>
        have e2 : a.next c t (.mkMove j false) = Abs.put t (a ++ [some none]) true a.length (.elem j) := by simp [Abs.next, ht, Abs.step]
        rw [e2]
        exact ⟨rfl, full_put_last hf true hs' (src_ne hs')⟩
      | true =>
        have e2 : a.next c t (.mkMove j true) = a ++ [none] := by simp [Abs.next, ht]
        rw [e2]
        exact ⟨rfl, full_append hf (by simp)⟩
  | mkCopy j =>
    obtain ⟨x, hx⟩ := Option.isSome_iff_exists.1 (show a.Exists j from ha)
    have ht : c.trivial = true := hs
    simp only [step, mkCopy, Abs.throws, Abs.next, Abs.step, Bool.false_eq_true, if_false, world_get, hx, Option.map_some]
    constructor
    · have : (⟨(conc x).mem.bytes c, (conc x).active⟩ : Own V) = conc x := by cases x <;> simp [conc, Mem.bytes, ht]
      rw [this, world_add]
    · apply full_append hf
      intro hd e
      exact hf hd j (by rw [getElem_of_bind hx]; rw [Option.some.inj e])
  | assign move i src th =>
    obtain ⟨h1, h2, _⟩ := ha
    simp only [step]
    rw [assign_spec hf h1 h2 hs]
    simp only [Abs.throws, Abs.next, Abs.step]
    cases th with
    | false => exact ⟨rfl, full_put hf move⟩
    | true => exact ⟨rfl, hf⟩
  | moveOwner i j th =>
    obtain ⟨h1, h2, _⟩ := ha
    obtain ⟨x, hx⟩ := Option.isSome_iff_exists.1 (show a.Exists i from h1)
    obtain ⟨y, hy⟩ := Option.isSome_iff_exists.1 (show a.Exists j from h2)
    simp only [step, moveOwner, world_get, hx, hy, Option.map_some, Option.bind_some, Abs.throws, Abs.next, Abs.step]
    by_cases hij : i = j
    · simp only [if_pos hij, hij, bne_self_eq_false, Bool.false_and, Bool.false_eq_true, if_false]
      exact ⟨rfl, hf⟩
    · have hb : (i != j) = true := by simp [hij]
      simp only [if_neg hij, hb, Bool.true_and]
      cases y with
      | none =>
        have hd : c.default = false := by
          cases hd : c.default with
          | false => rfl
          | true => exact absurd (getElem_of_bind hy) (hf hd j)
        have h0 : a.arg (.elem j) = none := by rw [arg_elem, hy]; rfl
        simp only [h0, hd, conc, Bool.or_self, Bool.false_eq_true, if_false, if_true, Option.isSome_none, Bool.false_and]
        refine ⟨?_, full_set hf (by rw [hd]; rintro ⟨⟩)⟩
        have hr := reset_spec (show a.Exists i from h1)
        rw [reset, world_get, hx] at hr
        simp only [Option.map_some, Option.bind_some] at hr
        cases x with
        | none =>
          simp only [conc, Bool.false_eq_true, if_false, Option.bind_some, world_get, hx, Option.map_some]
          exact congrArg (fun w => some (false, w)) (world_set i (some none))
        | some v =>
          simp only [conc, if_true] at hr ⊢
          rw [destroy_some hx] at hr ⊢
          simp only [Option.bind_some] at hr ⊢
          obtain ⟨o, ho, he⟩ := Option.map_eq_some_iff.1 hr
          rw [ho, Option.map_some, he]
      | some v =>
        have h0 := arg_some hy
        simp only [h0, conc, Bool.or_true, if_true, Option.isSome_some, Bool.true_and, reduceCtorEq, if_false]
        rw [assign_spec hf h1 (by rw [h0]; rfl)]
        · cases th with
          | false => exact ⟨rfl, full_put hf true⟩
          | true => exact ⟨rfl, hf⟩
        · rcases hs with h | h | h | h | h | h
          · exact .inl h
          · exact .inr (.inl h)
          · exact .inr (.inr (.inl h))
          · rw [h0] at h; cases h
          · exact absurd h hij
          · exact .inr (.inr (.inr ⟨h, by intro e; cases e; exact hij rfl⟩))
  | copyOwner i j =>
    obtain ⟨h1, h2⟩ := ha
    obtain ⟨x, hx⟩ := Option.isSome_iff_exists.1 (show a.Exists i from h1)
    obtain ⟨y, hy⟩ := Option.isSome_iff_exists.1 (show a.Exists j from h2)
    have ht : c.trivial = true := hs
    simp only [step, copyOwner, Abs.throws, Abs.next, Abs.step, Bool.false_eq_true, if_false, world_get, hx, hy, Option.map_some, Option.bind_some]
    constructor
    · by_cases hij : i = j
      · subst hij
        rw [if_pos rfl, set_self _ _ _ (by rw [getElem_of_bind hy])]
      · rw [if_neg hij]
        have : (⟨(conc y).mem.bytes c, (conc y).active⟩ : Own V) = conc y := by cases y <;> simp [conc, Mem.bytes, ht]
        have e := world_set (a := a) i (some y)
        rw [Option.map_some] at e
        rw [this, e, ht]; rfl
    · apply full_set hf
      intro hd e
      exact hf hd j (by rw [getElem_of_bind hy]; rw [Option.some.inj e])
  | reset i =>
    obtain ⟨h1, h2⟩ := ha
    simp only [step, Abs.throws, Abs.next, Abs.step, Bool.false_eq_true, if_false]
    rw [reset_spec h2]
    exact ⟨rfl, full_set hf (by rw [h1]; rintro ⟨⟩)⟩
  | drop i =>
    obtain ⟨x, hx⟩ := Option.isSome_iff_exists.1 (show a.Exists i from ha)
    have hi : i < a.length := (List.getElem?_eq_some_iff.1 (getElem_of_bind hx)).1
    simp only [step, drop, Abs.throws, Abs.next, Abs.step, Bool.false_eq_true, if_false]
    refine ⟨?_, full_set hf (by simp)⟩
    have e := world_set (a := a) i none
    rw [Option.map_none] at e
    cases hd : c.default with
    | true =>
      cases x with
      | none => exact absurd (getElem_of_bind hx) (hf hd i)
      | some v =>
        rw [if_pos rfl, destroy_some hx, Option.bind_some, get_set _ (by rw [world_get, hx]; rfl), Option.map_some, set_set, e]
        rfl
    | false =>
      rw [if_neg (by simp), reset_spec ha, Option.bind_some, world_get, List.getElem?_set_self hi]
      have e2 := world_set (a := a.set i (some none)) i none
      rw [Option.map_none, List.set_set] at e2
      simp only [Option.bind_some, id, Option.map_some]
      rw [e2]; rfl

/-- The owners after a sequence of operations. -/
def Abs.after (c : Cls) (t : Ty V) (a : Abs V) (ops : List (Op V)) : Abs V := ops.foldl (Abs.next c t) a

/-- All operations are allowed and safe when they are called. -/
def Abs.Good (c : Cls) (t : Ty V) : Abs V → List (Op V) → Prop
  | _, [] => True
  | a, op :: ops => a.Allowed c op ∧ a.Safe c op ∧ Abs.Good c t (a.next c t op) ops

theorem run_world (hf : a.Full c) (ops : List (Op V)) (hg : a.Good c t ops) :
    run c t a.world ops = some (a.after c t ops).world ∧ (a.after c t ops).Full c := by
  induction ops generalizing a with
  | nil => exact ⟨rfl, hf⟩
  | cons op ops ih =>
    obtain ⟨h1, h2, h3⟩ := hg
    obtain ⟨h4, h5⟩ := step_spec (t := t) hf op h1 h2
    rw [run, h4, Option.bind_some]
    exact ih h5 h3

/-- For every sequence of operations: no undefined behaviour and no leak, and every owner is active and has the value an optional value has. -/
theorem owner_optional_partial (ops : List (Op V)) (hg : Abs.Good c t [] ops) :
    ∃ w, run c t start ops = some w ∧ w.leaks = 0
      ∧ ∀ i x, (Abs.after c t [] ops)[i]? = some (some x) → isActive w i = some x.isSome ∧ value w i = x := by
  obtain ⟨h1, _⟩ := run_world (a := []) (fun _ i => by simp) ops hg
  refine ⟨_, h1, rfl, ?_⟩
  intro i x hx
  have h2 : (Abs.after c t [] ops)[i]?.bind id = some x := by rw [hx]; rfl
  rw [isActive, value, world_get, h2]
  cases x <;> exact ⟨rfl, rfl⟩

/-- At the end every object has been destroyed: an owner that does not exist any more, or is empty, has none. -/
theorem owner_destroys (ops : List (Op V)) (hg : Abs.Good c t [] ops) (he : ∀ x ∈ Abs.after c t [] ops, x = none) :
    ∃ w, run c t start ops = some w ∧ w.leaks = 0 ∧ ∀ x ∈ w.owners, x = none := by
  obtain ⟨h1, _⟩ := run_world (a := []) (fun _ i => by simp) ops hg
  refine ⟨_, h1, rfl, ?_⟩
  intro x hx
  obtain ⟨y, hy, rfl⟩ := List.mem_map.1 hx
  rw [he y hy]; rfl

/-- An owner that was moved from stays active. -/
theorem moved_stays {i j : Nat} {v : V} (hij : i ≠ j) (hi : i < a.length) (hv : a[j]? = some (some (some v))) :
    (a.next c t (.moveOwner i j false))[i]? = some (some (some v)) ∧ (a.next c t (.moveOwner i j false))[j]? = some (some (some (t.moved v))) := by
  have h0 : a.arg (.elem j) = some v := by rw [arg_elem, hv]; rfl
  have h1 : a.throws c (.moveOwner i j false) = false := by simp [Abs.throws]
  simp only [Abs.next, h1, Abs.step, if_neg hij, h0, Abs.put, Abs.moveFrom, reduceCtorEq, if_false, if_true, Bool.false_eq_true]
  constructor
  · rw [List.getElem?_set_self (by simpa using hi)]
  · rw [List.getElem?_set_ne hij, List.getElem?_modify, hv]; simp

/-! ## Examples and witnesses -/

/-- A type with a move constructor that leaves 0. -/
def handle : Ty Nat := ⟨fun _ => 0, 1⟩

/-- Neither default constructible nor assignable, and not trivial: for example a type with a reference as member. -/
def fixedCls : Cls := ⟨false, false, false, false⟩

/-- As `fixedCls`, but assignable: the `Buffer` of the Vulkan backend. -/
def bufferCls : Cls := ⟨false, true, true, false⟩

example : Abs.Good fixedCls handle [] [.mkFrom true (.ext 5) false, .mkDefault false, .moveOwner 1 0 false, .assign false 0 (.elem 1) false, .reset 0,
    .drop 0, .drop 1] := by
  refine ⟨rfl, trivial, trivial, trivial, ⟨rfl, rfl, ?_⟩, ?_, ⟨rfl, rfl, ?_⟩, ?_, ⟨rfl, rfl⟩, trivial, rfl, trivial, rfl, trivial, trivial⟩
  · rintro ⟨⟩
  · exact .inr (.inr (.inl rfl))
  · rintro ⟨⟩
  · exact .inr (.inr (.inr ⟨rfl, by decide⟩))

example : run bufferCls handle start [.mkFrom true (.ext 5) false, .mkDefault false, .moveOwner 1 0 false]
    = some ⟨[some ⟨.live 0, true⟩, some ⟨.live 5, true⟩], 0⟩ := by decide

/-- Copying an owner copies bytes: the destructor of the copy destroys an object that was never constructed. -/
theorem copy_construct_violated : run bufferCls handle start [.mkFrom false (.ext 5) false, .mkCopy 0, .drop 1] = none
    ∧ Abs.after bufferCls handle [] [.mkFrom false (.ext 5) false, .mkCopy 0, .drop 1] = [some (some 5), none] := by decide

/-- Copy assignment as well, and the object that was there is lost. -/
theorem copy_assign_violated :
    run bufferCls handle start [.mkFrom false (.ext 5) false, .mkFrom false (.ext 6) false, .copyOwner 0 1]
      = some ⟨[some ⟨.copied 6, true⟩, some ⟨.live 6, true⟩], 1⟩
    ∧ run bufferCls handle start [.mkFrom false (.ext 5) false, .mkFrom false (.ext 6) false, .copyOwner 0 1, .drop 0] = none := by decide

/-- Without assignment the object is destroyed first; when the constructor then throws the owner still counts as active. -/
theorem assign_throws_violated : run fixedCls handle start [.mkFrom false (.ext 5) false, .assign false 0 (.ext 6) true]
      = some ⟨[some ⟨.raw, true⟩], 0⟩
    ∧ run fixedCls handle start [.mkFrom false (.ext 5) false, .assign false 0 (.ext 6) true, .drop 0] = none := by decide

/-- Assigning its own object to an owner uses the object after its destruction. -/
theorem assign_self_violated : run fixedCls handle start [.mkFrom false (.ext 5) false, .assign false 0 (.elem 0) false] = none := by decide

end Verif.Owner
