import Verif.Proof.DofView

/-!
Views of degrees of freedom (C105).
-/
namespace Verif.DofView

variable {α : Type}

/-- A scalar that was set is read back, and the other scalars keep their values. -/
theorem set_get (v : View) (m : Cell → α) (i : Nat) (x : α) :
    v.get (v.set m i x) i = x ∧ ∀ j, j ≠ i → v.get (v.set m i x) j = v.get m j :=
  ⟨write_same m _ x, fun _ hj => write_other m (fun h => hj (getCell_inj h)) x⟩

/-- Setting a scalar changes nothing but the cell that is read for it. -/
theorem set_frame (v : View) (m : Cell → α) (i : Nat) (x : α) (c : Cell) (hc : c ≠ v.getCell i) : v.set m i x c = m c :=
  write_other m hc x

/-- The vector at `i` consists of the scalars from `i * dim` on. -/
theorem vectors_of_scalars {v : View} (hd : 0 < v.dim) (m : Cell → α) (i : Nat) :
    v.getVec m i = (List.range v.dim).map fun d => v.get m (i * v.dim + d) := by
  rw [View.getVec, getCells_eq hd, List.map_map]
  rfl

/-- Setting a vector with as many components as the view has: it is read back, the other vectors keep their values, and no other cell changes. Missing are
scalars in channels where the traits do not have the dimension of the view, see `set_vector_violated`. -/
theorem set_vector_partial {v : View} (hd : 0 < v.dim) (hv : v.withChannel = true → v.vectors = false → v.deduced = v.dim) (m : Cell → α) (i : Nat)
    (xs : List α) (hx : xs.length = v.dim) :
    v.getVec (v.setVec m i xs) i = xs ∧ (∀ j, j ≠ i → v.getVec (v.setVec m i xs) j = v.getVec m j) ∧
      ∀ c, c ∉ v.getCells i → v.setVec m i xs c = m c := by
  have he : v.setCells xs.length i = v.getCells i := by
    rw [hx]
    unfold View.setCells View.getCells
    cases hw : v.withChannel <;> cases hvec : v.vectors <;> simp [hw, hvec] at hv ⊢
    exact fun h => absurd hv h
  have hlen : (v.getCells i).length = xs.length := by rw [hx, View.getCells, List.length_map, List.length_range]
  have hframe : ∀ c, c ∉ v.getCells i → v.setVec m i xs c = m c := fun c hc => by
    rw [View.setVec, he]
    exact foldl_other _ _ _ (by rw [List.map_fst_zip (Nat.le_of_eq hlen)]; exact hc)
  refine ⟨?_, fun j hj => ?_, hframe⟩
  · rw [View.getVec, View.setVec, he]
    exact foldl_read _ _ _ hlen (getCells_nodup hd i)
  · exact List.map_congr_left fun c hc => hframe c (getCells_apart hd (Ne.symm hj) c hc)

/-- Vectors of 3 in the channels 2, 3, 4 of a container of scalars with `dim` 3. -/
example : let v : View := { withChannel := true, vectors := false, dim := 3, deduced := 3, size := 10, chn := 2 }
    v.getVec (v.setVec (fun _ => 0) 4 [7, 8, 9]) 4 = [7, 8, 9] ∧ v.get (v.setVec (fun _ => 0) 4 [7, 8, 9]) 13 = 8 := by decide

/-- With a container that has no `dim` of its own, such as `TileVector`, a vector set through the channels is not read back, and the first channel of other
elements is overwritten. -/
theorem set_vector_violated : let v : View := { withChannel := true, vectors := false, dim := 3, deduced := 1, size := 10, chn := 2 }
    v.getVec (v.setVec (fun _ => 0) 1 [7, 8, 9]) 1 = [0, 0, 0] ∧ v.getVec (v.setVec (fun _ => 0) 1 [7, 8, 9]) 4 = [8, 0, 0] := by decide

/-- Without channels, a vector whose extent is not that of the view is set at multiples of its own extent, and other elements are overwritten; with channels
nothing is set. -/
theorem set_extent_violated : let v : View := { withChannel := false, vectors := false, dim := 3, deduced := 1, size := 30, chn := 0 }
    v.getVec (v.setVec (fun _ => 0) 4 [7, 8]) 4 = [0, 0, 0] ∧ v.getVec (v.setVec (fun _ => 0) 4 [7, 8]) 2 = [0, 0, 7] ∧
    ∀ (w : View) (m : Cell → Nat) (i : Nat) (xs : List Nat), w.withChannel = true → w.vectors = false → xs.length ≠ w.dim → w.setVec m i xs = m := by
  refine ⟨by decide, by decide, fun w m i xs h1 h2 h3 => ?_⟩
  simp [View.setVec, View.setCells, h1, h2, h3]

/-- The iterator at `i` is the scalar `i`; from begin to end it passes each scalar of each element once, in order of the elements. -/
theorem iterator_exact {v : View} (hd : 0 < v.dim) :
    (∀ i, v.iterCell i = v.getCell i) ∧ ((List.range v.numEntries).map v.iterCell).Nodup ∧
      (v.withChannel = true ∨ v.vectors = true → (List.range v.numEntries).map v.iterCell = (List.range v.size).flatMap v.getCells) ∧
      (v.withChannel = false → v.vectors = false → (List.range v.numEntries).map v.iterCell = (List.range v.size).map fun i => (0, i, 0)) := by
  refine ⟨fun i => rfl, nodup_map (fun a b h => getCell_inj h) List.nodup_range, fun h => ?_, fun h1 h2 => ?_⟩
  · have hn : v.numEntries = v.size * v.dim := by
      unfold View.numEntries
      rcases h with h | h <;> simp [h]
    rw [hn]
    have key : ∀ n, (List.range (n * v.dim)).map v.iterCell = (List.range n).flatMap v.getCells := fun n => by
      induction n with
      | zero => simp
      | succ n ih =>
        rw [Nat.succ_mul, List.range_add, List.map_append, ih, List.range_succ, List.flatMap_append, List.flatMap_singleton, getCells_eq hd,
          List.map_map]
        rfl
    exact key _
  · unfold View.numEntries View.iterCell
    simp [h1, h2]

end Verif.DofView
