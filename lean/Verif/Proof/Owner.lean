import Verif.Spec.Owner

namespace Verif.Owner

variable {V : Type} {c : Cls} {t : Ty V} {a : Abs V}

/-- The state of an owner with the given value. -/
def conc : Option V → Own V
  | none => ⟨.raw, false⟩
  | some v => ⟨.live v, true⟩

/-- The state that represents `a`, without leaks. -/
def Abs.world (a : Abs V) : World V := ⟨a.map (Option.map conc), 0⟩

/-- With a default constructor no owner is empty. -/
def Abs.Full (c : Cls) (a : Abs V) : Prop := c.default = true → ∀ i : Nat, a[i]? ≠ some (some none)

theorem world_get (i : Nat) : a.world.get i = (a[i]?.bind id).map conc := by
  simp only [World.get, Abs.world, List.getElem?_map]
  cases a[i]? with
  | none => rfl
  | some o => cases o <;> rfl

theorem world_set (i : Nat) (x : Option (Option V)) : a.world.set i (x.map conc) = Abs.world (a.set i x) := by
  simp [World.set, Abs.world, List.map_set]

theorem world_add (x : Option V) : a.world.add (conc x) = Abs.world (a ++ [some x]) := by simp [World.add, Abs.world]

theorem src_read (src : Src V) : src.read a.world = a.arg src := by
  cases src with
  | ext v => rfl
  | elem j =>
    simp only [Src.read, Abs.arg, world_get]
    rcases a[j]?.bind id with _ | _ | v <;> rfl

theorem set_self {α : Type} (l : List α) (j : Nat) (x : α) (h : l[j]? = some x) : l.set j x = l := by
  apply List.ext_getElem?
  intro k
  by_cases hk : j = k
  · subst hk
    have := List.getElem?_eq_some_iff.1 h
    rw [List.getElem?_set_self this.1, h]
  · rw [List.getElem?_set_ne hk]

theorem modify_set {α : Type} (l : List α) (j : Nat) (f : α → α) (x : α) (h : l[j]? = some x) : l.modify j f = l.set j (f x) := by
  apply List.ext_getElem?
  intro k
  by_cases hk : j = k
  · subst hk
    have := List.getElem?_eq_some_iff.1 h
    rw [List.getElem?_set_self this.1, List.getElem?_modify, h]; simp
  · rw [List.getElem?_set_ne hk, List.getElem?_modify]; simp [hk]

theorem src_leave (src : Src V) : src.leave t a.world = Abs.world (a.moveFrom t src) := by
  cases src with
  | ext v => rfl
  | elem j =>
    simp only [Src.leave, Abs.moveFrom, world_get]
    cases h : a[j]? with
    | none =>
      show a.world = _
      rw [List.modify_eq_self (by have := List.getElem?_eq_none_iff.1 h; omega)]
    | some o =>
      rw [modify_set _ _ _ _ h]
      rcases o with _ | _ | v
      · rw [Option.map_none, set_self _ _ _ h]; rfl
      · show a.world.set j ((some none : Option (Option V)).map conc) = _
        rw [world_set]; rfl
      · show a.world.set j ((some (some (t.moved v)) : Option (Option V)).map conc) = _
        rw [world_set]; rfl

/-- The argument is the object of owner `i`. -/
def Src.hits (i : Nat) : Src V → Bool
  | .ext _ => false
  | .elem j => j == i

/-- The owner keeps existing when something is moved. -/
theorem moveFrom_get (src : Src V) (i : Nat) : (a.moveFrom t src)[i]?.bind id = (a[i]?.bind id).map fun o => if src.hits i then o.map t.moved else o := by
  cases src with
  | ext v =>
    simp only [Abs.moveFrom, Src.hits, Bool.false_eq_true, if_false, Option.map_id']
  | elem j =>
    simp only [Abs.moveFrom, List.getElem?_modify, Src.hits, beq_iff_eq]
    by_cases h : j = i
    · subst h
      cases a[j]? with
      | none => rfl
      | some o => cases o <;> simp
    · simp only [if_neg h]
      cases a[i]? <;> simp

theorem destroy_some {i : Nat} {v : V} (h : a[i]?.bind id = some (some v)) :
    destroy a.world i = some (a.world.set i (some ⟨.raw, true⟩)) := by
  rw [destroy, world_get, h]; rfl

theorem set_set (w : World V) (i : Nat) (x y : Option (Own V)) : (w.set i x).set i y = w.set i y := by
  simp [World.set]

theorem get_set (w : World V) {i : Nat} (h : (w.get i).isSome) (x : Option (Own V)) : (w.set i x).get i = x := by
  have hi : i < w.owners.length := by
    rw [World.get] at h
    cases hw : w.owners[i]? with
    | none => rw [hw] at h; cases h
    | some o => exact (List.getElem?_eq_some_iff.1 hw).1
  simp [World.get, World.set, List.getElem?_set_self hi]

theorem getElem_of_bind {i : Nat} {x : Option V} (h : a[i]?.bind id = some x) : a[i]? = some (some x) := by
  cases h' : a[i]? with
  | none => rw [h'] at h; cases h
  | some o => rw [h'] at h; exact congrArg some h

/-- Constructing into an empty owner. -/
theorem put_create {i : Nat} (h : a[i]?.bind id = some none) {src : Src V} (hs : (a.arg src).isSome) (move th : Bool) :
    put t move true a.world i src th = some (th, if th then a.world else Abs.world (Abs.put t a move i src)) := by
  obtain ⟨v, hv⟩ := Option.isSome_iff_exists.1 hs
  rw [put, src_read, hv, Option.bind_some]
  cases th with
  | true => rfl
  | false =>
    have key : ∀ b : Abs V, b[i]?.bind id = some none → create b.world i v = some (Abs.world (b.set i (some (some v)))) := by
      intro b hb
      rw [create, world_get, hb]
      have e := world_set (a := b) i (some (some v))
      simp only [Option.map_some, conc] at e ⊢
      rw [e]; rfl
    cases move with
    | false =>
      simp only [Bool.false_eq_true, if_false, if_true, key _ h, Option.map_some, Abs.put, hv]
    | true =>
      have h' : (a.moveFrom t src)[i]?.bind id = some none := by rw [moveFrom_get, h]; simp
      simp only [Bool.false_eq_true, if_false, if_true, src_leave, key _ h', Option.map_some, Abs.put, hv]

/-- Assigning to the value of an owner. -/
theorem put_store {i : Nat} {x : V} (h : a[i]?.bind id = some (some x)) {src : Src V} (hs : (a.arg src).isSome) (move th : Bool) :
    put t move false a.world i src th = some (th, if th then a.world else Abs.world (Abs.put t a move i src)) := by
  obtain ⟨v, hv⟩ := Option.isSome_iff_exists.1 hs
  rw [put, src_read, hv, Option.bind_some]
  have key : ∀ (b : Abs V) (x : V), b[i]?.bind id = some (some x) → store b.world i v = some (Abs.world (b.set i (some (some v)))) := by
    intro b x hb
    rw [store, world_get, hb]
    show some (b.world.set i ((some (some v) : Option (Option V)).map conc)) = _
    rw [world_set]
  cases th with
  | true => simp only [if_true, Bool.false_eq_true, if_false, key _ _ h, Option.map_some]
  | false =>
    cases move with
    | false =>
      simp only [Bool.false_eq_true, if_false, key _ _ h, Option.map_some, Abs.put, hv]
    | true =>
      have h' : (a.moveFrom t src)[i]?.bind id = some (some (if src.hits i then t.moved x else x)) := by
        rw [moveFrom_get, h]; simp only [Option.map_some]; split <;> rfl
      simp only [Bool.false_eq_true, if_false, if_true, src_leave, key _ _ h', Option.map_some, Abs.put, hv]

/-- Whether the class assigns to an existing object or replaces it. -/
def assignable (c : Cls) (move : Bool) : Bool := if move then c.moveAssign else c.copyAssign

theorem moveFrom_set {i : Nat} {x : Option (Option V)} {src : Src V} (h : src ≠ .elem i) :
    Abs.moveFrom t (a.set i x) src = (a.moveFrom t src).set i x := by
  cases src with
  | ext v => rfl
  | elem j =>
    have hji : j ≠ i := fun e => h (by rw [e])
    apply List.ext_getElem?
    intro k
    simp only [Abs.moveFrom, List.getElem?_modify, List.getElem?_set, List.length_modify]
    by_cases h1 : i = k
    · subst h1
      simp only [if_true, if_neg hji]
      split
      · simp
      · simp
    · simp only [if_neg h1]

theorem arg_set {i : Nat} {x : Option (Option V)} {src : Src V} (h : src ≠ .elem i) : Abs.arg (a.set i x) src = a.arg src := by
  cases src with
  | ext v => rfl
  | elem j =>
    have hji : i ≠ j := fun e => h (by rw [e])
    simp only [Abs.arg, List.getElem?_set_ne hji]

/-- Destroying the object, then constructing another one. -/
theorem put_destroy {i : Nat} {x : V} (h : a[i]?.bind id = some (some x)) {src : Src V} (hs : (a.arg src).isSome) (hne : src ≠ .elem i) (move : Bool) :
    put t move true (a.world.set i (some ⟨.raw, true⟩)) i src false = some (false, Abs.world (Abs.put t a move i src)) := by
  obtain ⟨v, hv⟩ := Option.isSome_iff_exists.1 hs
  have hi : i < a.length := (List.getElem?_eq_some_iff.1 (getElem_of_bind h)).1
  have hg : ∀ x : Option (Own V), (a.world.get i).isSome := by intro _; rw [world_get, h]; rfl
  have hr : src.read (a.world.set i (some ⟨.raw, true⟩)) = some v := by
    rw [← hv, ← src_read]
    cases src with
    | ext v => rfl
    | elem j =>
      have hji : i ≠ j := fun e => hne (by rw [e])
      simp only [Src.read, World.get, World.set, List.getElem?_set_ne hji]
  rw [put, hr, Option.bind_some]
  have hl : src.leave t (a.world.set i (some ⟨.raw, true⟩)) = (src.leave t a.world).set i (some ⟨.raw, true⟩) := by
    cases src with
    | ext v => rfl
    | elem j =>
      have hji : i ≠ j := fun e => hne (by rw [e])
      have e : (a.world.set i (some ⟨.raw, true⟩)).get j = a.world.get j := by simp only [World.get, World.set, List.getElem?_set_ne hji]
      simp only [Src.leave, e]
      cases a.world.get j with
      | none => rfl
      | some o => simp only [World.set]; rw [List.set_comm _ _ hji]
  have key : ∀ b : Abs V, i < b.length → create (b.world.set i (some ⟨.raw, true⟩)) i v = some (Abs.world (b.set i (some (some v)))) := by
    intro b hb
    have g : (b.world.set i (some ⟨.raw, true⟩)).get i = some ⟨.raw, true⟩ := by
      simp [World.get, World.set, List.getElem?_set_self (show i < b.world.owners.length by simpa [Abs.world] using hb)]
    have e := world_set (a := b) i (some (some v))
    simp only [Option.map_some, conc] at e
    rw [create, g, Option.map_some, set_set, e]; rfl
  cases move with
  | false => simp only [Bool.false_eq_true, if_false, if_true, key a hi, Option.map_some, Abs.put, hv]
  | true =>
    have hi' : i < (a.moveFrom t src).length := by cases src <;> simpa [Abs.moveFrom] using hi
    simp only [Bool.false_eq_true, if_false, if_true, hl, src_leave, key _ hi', Option.map_some, Abs.put, hv]

end Verif.Owner
