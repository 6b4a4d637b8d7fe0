import Verif.Proof.SparseGrid
import Verif.Props.GridComplement

/-!
Values of sparse grids (C71): `valueOr` gives the value stored for a cell or the default, and an accessor that remembers a block gives the same
answers.
-/
namespace Verif.SparseGrid

open Verif.Grid

variable {V : Type} {g : SGrid V} {chns : Nat}

/-- There is at most one block around a coordinate, and there is one answer. -/
theorem look_unique (ho : Ok chns g) {chn : Nat} {c : Coord} (hc : c.length = g.dim) {f f' : Bool} {v v' : V} (h : Look g chn c f v)
    (h' : Look g chn c f' v') : f = f' ∧ v = v' := by
  cases h with
  | block hb hv => cases h' with
    | block hb' hv' =>
      have := (find_iff ho hc _).2 hb
      rw [(find_iff ho hc _).2 hb'] at this
      cases this
      rw [hv] at hv'; cases hv'
      exact ⟨rfl, rfl⟩
    | empty he => exact absurd hb (he _)
  | empty he => cases h' with
    | block hb' => exact absurd hb' (he _)
    | empty => exact ⟨rfl, rfl⟩

/-- A cell in a block of the grid: its value, which is in the storage. -/
theorem valueOr_block (ho : Ok chns g) {chn : Nat} (hchn : chn < chns) {c : Coord} (hc : c.length = g.dim) {n : Nat} (hb : Block g c n) (d : V) :
    ∃ v, g.read chn n (cell g c) = some v ∧ valueOr g chn c d = some v := by
  obtain ⟨f, v, h1, h2⟩ := look_spec ho hc hchn
  cases h2 with
  | empty he => exact absurd hb (he n)
  | block hb' hv =>
    have := (find_iff ho hc _).2 hb
    rw [(find_iff ho hc _).2 hb'] at this
    cases this
    exact ⟨v, hv, by rw [valueOr_look, h1]; rfl⟩

/-- A cell in no block: the default. -/
theorem valueOr_empty (ho : Ok chns g) (chn : Nat) {c : Coord} (hc : c.length = g.dim) (hn : ∀ n, ¬ Block g c n) (d : V) :
    valueOr g chn c d = some d := by
  cases e : (decompose g c).1 with
  | none => rw [valueOr, e]; rfl
  | some n => exact absurd ((find_iff ho hc n).1 e) (hn n)

/-- Two cells of one cube have different numbers, so that no two cells share storage. -/
theorem cell_injective (ho : Ok chns g) {c c' : Coord} (hc : c.length = g.dim) (hc' : c'.length = g.dim) {n : Nat} (h : Block g c n)
    (h' : Block g c' n) (he : cell g c = cell g c') : c = c' := by
  have hk : blockId g.b c = blockId g.b c' := by
    apply toInt_inj
    rw [(decompose_spec ho.side.2 c (by rw [hc]; exact ho.bits)).1, (decompose_spec ho.side.2 c' (by rw [hc']; exact ho.bits)).1, ← h.2, ← h'.2]
  have hl : localOffset g.b (cellId g.b c) = localOffset g.b (cellId g.b c') := by
    apply BitVec.eq_of_toNat_eq
    have h1 : (localOffset g.b (cellId g.b c)).toNat = cell g c := (cell_eq ho hc).1
    have h2 : (localOffset g.b (cellId g.b c')).toNat = cell g c' := (cell_eq ho hc').1
    rw [h1, h2, he]
  rw [← sparse_iCoord ho.side.2 c (by rw [hc]; exact ho.bits), ← sparse_iCoord ho.side.2 c' (by rw [hc']; exact ho.bits), hk, hl, hc, hc']

/-- `valueOr` with an orientation: faces `0` to `dim - 1` belong to the cell, faces `dim + a` to the next cell along axis `a`; further
orientations repeat these. -/
theorem valueOrFace_spec (chn : Nat) (c : Coord) (d : V) (k : Nat) {a : Nat} (ha : a < g.dim) :
    valueOrFace g chn c (k * (2 * g.dim) + a) d = valueOr g chn c d
      ∧ valueOrFace g chn c (k * (2 * g.dim) + g.dim + a) d = valueOr g chn (c.set a (c.getD a 0 + 1)) d := by
  have h1 : (k * (2 * g.dim) + a) % (g.dim + g.dim) = a := by
    rw [show g.dim + g.dim = 2 * g.dim by omega, Nat.mul_comm k, Nat.mul_add_mod, Nat.mod_eq_of_lt (by omega)]
  have h2 : (k * (2 * g.dim) + g.dim + a) % (g.dim + g.dim) = g.dim + a := by
    rw [show g.dim + g.dim = 2 * g.dim by omega, Nat.mul_comm k, Nat.add_assoc, Nat.mul_add_mod, Nat.mod_eq_of_lt (by omega)]
  refine ⟨?_, ?_⟩
  · simp only [valueOrFace, h1]
    rw [if_neg (by omega)]
  · simp only [valueOrFace, h2]
    rw [if_pos (by omega), show g.dim + a - g.dim = a by omega]
    congr 1
    rw [next, List.modify_eq_set_getElem?]
    rcases Nat.lt_or_ge a c.length with h | h
    · simp [h]
    · rw [List.set_eq_of_length_le h]; simp [h]

/-- Whatever the grid holds, a new accessor answers every sequence of requests as look-ups without accessor do; they are answered as they should
if the grid is intact. -/
theorem accessor_answers (ho : Ok chns g) (qs : List (Nat × Coord)) (hq : ∀ q ∈ qs, q.1 < chns ∧ q.2.length = g.dim) :
    ∃ rs, accRun g (emptyRecord g.dim) qs = some rs ∧ List.Forall₂ (fun (q : Nat × Coord) (r : Bool × V) => Look g q.1 q.2 r.1 r.2) qs rs := by
  rw [accRun_look ho.side.1 ho.side.2 ho.dim qs (.inl rfl)]
  induction qs with
  | nil => exact ⟨[], rfl, .nil⟩
  | cons q qs ih =>
    obtain ⟨rs, h1, h2⟩ := ih fun q hq' => hq q (List.mem_cons_of_mem _ hq')
    obtain ⟨hc, hl⟩ := hq q List.mem_cons_self
    obtain ⟨f, v, h3, h4⟩ := look_spec ho hl hc
    exact ⟨(f, v) :: rs, by rw [List.mapM_cons, h3, h1]; rfl, .cons h4 h2⟩

/-- So `valueOr` with the background as default, for each request. -/
theorem accessor_valueOr (hb : 0 < g.b) (h31 : g.b < 31) (hd : 0 < g.dim) (qs : List (Nat × Coord)) :
    (accRun g (emptyRecord g.dim) qs).map (List.map (·.2)) = qs.mapM fun q => valueOr g q.1 q.2 g.background := by
  rw [accRun_look hb h31 hd qs (.inl rfl)]
  have hv : ∀ chn c, valueOr g chn c g.background = (look g chn c).map (·.2) := by
    intro chn c
    rw [valueOr_look, look]
    cases (decompose g c).1 with
    | none => rfl
    | some b => simp [Function.comp_def]
  induction qs with
  | nil => rfl
  | cons q qs ih =>
    rw [List.mapM_cons, List.mapM_cons, hv, ← ih]
    cases look g q.1 q.2 with
    | none => rfl
    | some x => cases List.mapM (fun q : Nat × Coord => look g q.1 q.2) qs <;> rfl

/-! ## Grids -/

/-- Blocks of two cells at 0 and at -2, in one dimension. -/
def twoBlocks : SGrid Nat where
  b := 1
  dim := 1
  cfg := (blockTable [[0], [-2]]).1
  tab := (blockTable [[0], [-2]]).2
  tiles := [[[10, 11], [20, 21]], [[18, 19], [28, 29]]]
  background := 99

theorem twoBlocks_ok : Ok 2 twoBlocks :=
  ⟨by decide, by decide, by decide, (by decide : 2 ≤ (blockTable []).1.B), rfl, blockTable_sound _ (by decide) (by decide) (by decide), Nat.le_refl 2,
    by decide⟩

example : Block twoBlocks [-1] 1 := ⟨by decide +kernel, by decide +kernel⟩

example : valueOr twoBlocks 1 [-1] 5 = some 29 ∧ valueOr twoBlocks 0 [2] 5 = some 5 ∧ valueOrFace twoBlocks 0 [-1] 1 5 = some 10 := by decide +kernel

example : accRun twoBlocks (emptyRecord 1) [(0, [0]), (0, [1]), (1, [-2]), (0, [2]), (1, [-1])]
    = some [(true, 10), (true, 11), (true, 28), (false, 99), (true, 29)] := by decide +kernel

/-- With side length one, which the class allows, the coordinate of a new record is that of a cell: asked for the cell at the largest integer, a
new accessor takes its block to be remembered and reads a tile that does not exist, where `valueOr` gives the background. -/
theorem accessor_side_one_violated :
    let g : SGrid Nat := { twoBlocks with b := 0, cfg := (blockTable []).1, tab := (blockTable []).2 }
    accRun g (emptyRecord 1) [(0, [0x7fffffff#32])] = none ∧ valueOr g 0 [0x7fffffff#32] g.background = some 99 := by decide +kernel

/-- With side length one, the mark of a hole of the table is the key of a cell, too: the cell `0x3f3f3f3f` has no block, but `valueOr` finds the
number that is in the first free slot, and its value is read from there. -/
theorem hole_side_one_violated :
    let g : SGrid Nat := { twoBlocks with b := 0, cfg := (blockTable [[0]]).1, tab := (blockTable [[0]]).2 }
    valueOr g 0 [0x3f3f3f3f#32] 5 = some 18 ∧ ∀ n < g.tab.cnt, g.tab.active n ≠ [0x3f3f3f3f#32] := by decide +kernel

end Verif.SparseGrid
