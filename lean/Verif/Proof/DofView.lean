import Verif.Model.DofView

/-!
Helpers for the views of degrees of freedom.
-/
namespace Verif.DofView

variable {α : Type}

theorem write_same (m : Cell → α) (c : Cell) (x : α) : write m c x c = x := if_pos rfl

theorem write_other (m : Cell → α) {c c' : Cell} (h : c' ≠ c) (x : α) : write m c x c' = m c' := if_neg h

theorem getCell_inj {v : View} {i j : Nat} (h : v.getCell i = v.getCell j) : i = j := by
  unfold View.getCell at h
  have key : i / v.dim = j / v.dim → i % v.dim = j % v.dim → i = j := fun h1 h2 => by
    rw [← Nat.div_add_mod i v.dim, ← Nat.div_add_mod j v.dim, h1, h2]
  split at h <;> split at h <;> simp only [Prod.mk.injEq] at h
  · exact key h.2.1 h.2.2
  · exact key h.2.1 (by omega)
  · exact key h.2.1 h.2.2
  · exact h.2.1

theorem foldl_other (l : List (Cell × α)) (m : Cell → α) (c : Cell) (h : c ∉ l.map Prod.fst) : l.foldl (fun m p => write m p.1 p.2) m c = m c := by
  induction l generalizing m with
  | nil => rfl
  | cons p l ih =>
    simp only [List.map_cons, List.mem_cons, not_or] at h
    rw [List.foldl_cons, ih _ h.2, write_other _ h.1]

/-- Writing the components in turn to different cells, then reading them. -/
theorem foldl_read (cs : List Cell) (xs : List α) (m : Cell → α) (hl : cs.length = xs.length) (hn : cs.Nodup) :
    cs.map ((cs.zip xs).foldl (fun m p => write m p.1 p.2) m) = xs := by
  induction cs generalizing xs m with
  | nil => cases xs with
    | nil => rfl
    | cons => cases hl
  | cons c cs ih =>
    cases xs with
    | nil => cases hl
    | cons x xs =>
      have hl' : cs.length = xs.length := by simpa using hl
      rw [List.nodup_cons] at hn
      simp only [List.zip_cons_cons, List.foldl_cons, List.map_cons]
      rw [ih xs _ hl' hn.2, foldl_other _ _ _ (by rw [List.map_fst_zip (Nat.le_of_eq hl')]; exact hn.1), write_same]

theorem getCells_eq {v : View} (hd : 0 < v.dim) (i : Nat) : v.getCells i = (List.range v.dim).map fun d => v.getCell (i * v.dim + d) := by
  apply List.map_congr_left
  intro d hmem
  have hlt := List.mem_range.1 hmem
  have h1 : (i * v.dim + d) / v.dim = i := by
    rw [Nat.mul_comm, Nat.mul_add_div hd, Nat.div_eq_of_lt hlt, Nat.add_zero]
  have h2 : (i * v.dim + d) % v.dim = d := by
    rw [Nat.mul_comm, Nat.mul_add_mod, Nat.mod_eq_of_lt hlt]
  unfold View.getCell
  rw [h1, h2]

theorem nodup_map {β γ : Type} {f : β → γ} (hf : ∀ a b, f a = f b → a = b) {l : List β} (h : l.Nodup) : (l.map f).Nodup := by
  unfold List.Nodup at *
  rw [List.pairwise_map]
  exact h.imp fun hne he => hne (hf _ _ he)

theorem getCells_nodup {v : View} (hd : 0 < v.dim) (i : Nat) : (v.getCells i).Nodup := by
  rw [getCells_eq hd]
  exact nodup_map (fun a b h => by have := getCell_inj h; omega) List.nodup_range

theorem getCells_apart {v : View} (hd : 0 < v.dim) {i j : Nat} (hne : i ≠ j) (c : Cell) (h : c ∈ v.getCells j) : c ∉ v.getCells i := by
  rw [getCells_eq hd] at *
  intro h'
  obtain ⟨a, ha, rfl⟩ := List.mem_map.1 h
  obtain ⟨b, hb, e⟩ := List.mem_map.1 h'
  have e' := getCell_inj e
  have ha := List.mem_range.1 ha
  have hb := List.mem_range.1 hb
  apply hne
  have := congrArg (· / v.dim) e'
  simp only [Nat.mul_comm _ v.dim, Nat.mul_add_div hd, Nat.div_eq_of_lt ha, Nat.div_eq_of_lt hb, Nat.add_zero] at this
  exact this

end Verif.DofView
