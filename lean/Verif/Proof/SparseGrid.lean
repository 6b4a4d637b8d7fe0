import Verif.Spec.SparseGrid
import Verif.Proof.BhtGrow
import Verif.Props.GridCoord

/-! Lemmas on sparse grids. -/
namespace Verif.SparseGrid

open Verif.Grid

variable {V : Type} {g : SGrid V} {chns : Nat}

theorem toInt_inj : ∀ {a b : Coord}, a.map BitVec.toInt = b.map BitVec.toInt → a = b := by
  intro a
  induction a with
  | nil => intro b h; cases b with
    | nil => rfl
    | cons => simp at h
  | cons x a ih => intro b h; cases b with
    | nil => simp at h
    | cons y b =>
      simp only [List.map_cons, List.cons.injEq] at h
      rw [BitVec.eq_of_toInt_eq h.1, ih h.2]

theorem key_odd {b : Nat} (hb : 0 < b) (h31 : b < 31) {dim : Nat} (hd : 0 < dim) {x : BitVec 32} (hx : x.getLsbD 0 = true) (c : Coord) :
    keyOf b c ≠ List.replicate dim x := by
  intro e
  cases c with
  | nil => have := congrArg List.length e; simp [keyOf] at this; omega
  | cons y c =>
    obtain ⟨n, rfl⟩ : ∃ n, dim = n + 1 := ⟨dim - 1, by omega⟩
    rw [keyOf, List.map_cons, List.replicate_succ, List.cons.injEq] at e
    have low : (y &&& ~~~(cellMask b)).getLsbD 0 = false := by
      rw [key_bit (by omega)]
      have : ¬ b ≤ 0 := by omega
      simp [this]
    rw [e.1, hx] at low
    cases low

/-- The look-up as one function. -/
def look (g : SGrid V) (chn : Nat) (c : Coord) : Option (Bool × V) :=
  match (decompose g c).1 with
  | none => some (false, g.background)
  | some b => (g.read chn b (decompose g c).2).map fun v => (true, v)

theorem valueOr_look (chn : Nat) (c : Coord) (d : V) : valueOr g chn c d = (look g chn c).map fun r => if r.1 then r.2 else d := by
  unfold valueOr look valueAt
  cases h : (decompose g c).1 with
  | none => simp
  | some b => simp [Function.comp_def]

/-- A record is new or that of a block. -/
def RecordOk (g : SGrid V) (r : Record) : Prop := r = emptyRecord g.dim ∨ g.find r.1 ≠ none

theorem accProbe_look (hb : 0 < g.b) (h31 : g.b < 31) (hd : 0 < g.dim) {r : Record} (hr : RecordOk g r) (chn : Nat) (c : Coord) :
    (accProbe g chn c r = none ∧ look g chn c = none) ∨
      ∃ r' x, accProbe g chn c r = some (r', x) ∧ look g chn c = some x ∧ RecordOk g r' := by
  have hk : blockId g.b c = keyOf g.b c := blockId_eq (by omega) c
  have hf : (decompose g c).1 = g.find (keyOf g.b c) := by rw [decompose, hk]
  cases e : g.find (keyOf g.b c) with
  | none =>
    have hne : ¬ (keyOf g.b c == r.1) = true := by
      rw [beq_iff_eq]
      intro h
      rcases hr with rfl | hr
      · exact key_odd hb h31 hd (by decide) c h
      · rw [h] at e; exact hr e
    right
    refine ⟨r, (false, g.background), ?_, ?_, hr⟩
    · rw [accProbe, if_neg hne, probeAndCache, e]
    · rw [look, hf, e]
  | some b =>
    have ha : accProbe g chn c r = readAndCache g chn c := by
      rw [accProbe]
      split
      · rfl
      · rw [probeAndCache, e]
    have hl : look g chn c = (g.read chn b (decompose g c).2).map fun v => (true, v) := by rw [look, hf, e]
    rw [ha, hl, readAndCache, hf, e, Option.bind_some]
    cases e' : g.read chn b (decompose g c).2 with
    | none => exact .inl ⟨rfl, rfl⟩
    | some v => exact .inr ⟨_, _, rfl, rfl, .inr (by rw [e]; simp)⟩

theorem accRun_look (hb : 0 < g.b) (h31 : g.b < 31) (hd : 0 < g.dim) (qs : List (Nat × Coord)) :
    ∀ {r : Record}, RecordOk g r → accRun g r qs = qs.mapM fun q => look g q.1 q.2 := by
  induction qs with
  | nil => intro r _; rfl
  | cons q qs ih =>
    intro r hr
    rw [accRun, List.mapM_cons]
    rcases accProbe_look hb h31 hd hr q.1 q.2 with ⟨h1, h2⟩ | ⟨r', x, h1, h2, h3⟩
    · rw [h1, h2]; rfl
    · rw [h1, h2, Option.bind_some, ih h3]
      show Option.map _ _ = _
      cases List.mapM (fun q : Nat × Coord => look g q.1 q.2) qs <;> rfl

section
variable (ho : Ok chns g)
include ho

theorem find_iff {c : Coord} (hc : c.length = g.dim) (n : Nat) : (decompose g c).1 = some n ↔ Block g c n := by
  have h32 : g.b < 32 := by have := ho.side; omega
  have hk : blockId g.b c = keyOf g.b c := blockId_eq h32 c
  have hs := (decompose_spec ho.side.2 c (by rw [hc]; exact ho.bits)).1
  rw [decompose, hk]
  show Bht.query g.cfg g.tab _ = some n ↔ _
  rw [ho.sound.query ho.B (by rw [ho.hole]; exact key_odd ho.side.1 ho.side.2 ho.dim (by decide) c), Block, ← hs, hk]
  constructor
  · rintro ⟨h1, h2⟩; exact ⟨h1, by rw [h2]⟩
  · rintro ⟨h1, h2⟩; exact ⟨h1, toInt_inj h2⟩

theorem cell_eq {c : Coord} (hc : c.length = g.dim) : (decompose g c).2 = cell g c ∧ cell g c < (2 ^ g.b) ^ g.dim := by
  have hs := (decompose_spec ho.side.2 c (by rw [hc]; exact ho.bits)).2
  rw [decompose, cell, ← hs.1]
  exact ⟨rfl, by rw [← hc]; exact hs.2⟩

theorem read_some {chn n k : Nat} (hchn : chn < chns) (hn : n < g.tab.cnt) (hk : k < (2 ^ g.b) ^ g.dim) : ∃ v, g.read chn n k = some v := by
  have h1 : n < g.tiles.length := by have := ho.tiles; omega
  obtain ⟨h2, h3⟩ := ho.shape _ (List.getElem_mem h1)
  have h4 : chn < (g.tiles[n]).length := by omega
  have h5 : k < ((g.tiles[n])[chn]).length := by rw [h3 _ (List.getElem_mem h4)]; exact hk
  exact ⟨((g.tiles[n])[chn])[k], by simp only [SGrid.read, List.getElem?_eq_getElem h1, Option.bind_some, List.getElem?_eq_getElem h4,
    List.getElem?_eq_getElem h5]⟩

theorem look_spec {c : Coord} (hc : c.length = g.dim) {chn : Nat} (hchn : chn < chns) : ∃ f v, look g chn c = some (f, v) ∧ Look g chn c f v := by
  cases e : (decompose g c).1 with
  | none => exact ⟨false, g.background, by rw [look, e], .empty fun n hn => by rw [(find_iff ho hc n).2 hn] at e; cases e⟩
  | some n =>
    have hb := (find_iff ho hc n).1 e
    obtain ⟨h1, h2⟩ := cell_eq ho hc
    obtain ⟨v, hv⟩ := read_some ho hchn hb.1 h2
    exact ⟨true, v, by simp only [look, e, h1, hv, Option.map_some], .block hb hv⟩

end

end Verif.SparseGrid
