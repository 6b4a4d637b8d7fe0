import Verif.Model.GridReorder
import Verif.Spec.GridTopo
import Verif.Proof.GridAccess
import Verif.Proof.BitMask
import Verif.Proof.Bht
import Verif.Proof.SparseBuild

/-! Lemmas for `reorder`: the kernels permute the levels, and the permutation makes children consecutive. -/
namespace Verif.Grid

open Verif.BitMask (W)

/-! ## Outcomes -/

/-- There is an outcome, and each is a result with the property. -/
def Good {α : Type} (m : Run α) (P : α → Prop) : Prop := (∃ o, m o) ∧ ∀ o, m o → ∃ a, o = .ok a ∧ P a

theorem Good.pure {α : Type} {a : α} {P : α → Prop} (h : P a) : Good (Pure.pure a) P :=
  ⟨⟨.ok a, rfl⟩, fun _ ho => ⟨a, ho, h⟩⟩

theorem Good.bind {α β : Type} {m : Run α} {f : α → Run β} {P : α → Prop} {Q : β → Prop} (h : Good m P)
    (hf : ∀ a, P a → Good (f a) Q) : Good (m >>= f) Q := by
  obtain ⟨⟨o, ho⟩, hm⟩ := h
  obtain ⟨a, rfl, ha⟩ := hm o ho
  obtain ⟨⟨o', ho'⟩, _⟩ := hf a ha
  refine ⟨⟨o', Or.inl ⟨a, ho, ho'⟩⟩, ?_⟩
  rintro o'' (⟨b, hb, hb'⟩ | ⟨h1, _⟩ | ⟨h1, _⟩)
  · obtain ⟨_, e, pb⟩ := hm _ hb
    cases e
    exact (hf b pb).2 _ hb'
  · obtain ⟨_, e, _⟩ := hm _ h1; cases e
  · obtain ⟨_, e, _⟩ := hm _ h1; cases e

theorem Good.pick {α : Type} {p : α → Prop} (h : ∃ a, p a) : Good (pick p) p := by
  obtain ⟨a, ha⟩ := h
  exact ⟨⟨.ok a, a, rfl, ha⟩, fun _ ho => ho⟩

theorem Good.ofOption {α : Type} {x : Option α} {P : α → Prop} (h : ∃ a, x = some a ∧ P a) : Good (ofOption x) P := by
  obtain ⟨a, rfl, ha⟩ := h
  exact ⟨⟨.ok a, rfl⟩, fun _ ho => ⟨a, ho, ha⟩⟩

theorem Good.mono {α : Type} {m : Run α} {P Q : α → Prop} (h : Good m P) (hpq : ∀ a, P a → Q a) : Good m Q :=
  ⟨h.1, fun o ho => let ⟨a, e, pa⟩ := h.2 o ho; ⟨a, e, hpq a pa⟩⟩

theorem Good.launch {σ : Type} {n : Nat} {task : σ → Nat → Option σ} {s : σ} {P : σ → Prop}
    (h : ∀ order : List Nat, order.Perm (List.range n) → ∃ s', order.foldlM task s = some s' ∧ P s') : Good (launch n task s) P :=
  Good.bind (Good.pick ⟨_, List.Perm.refl _⟩) fun order ho => Good.ofOption (h order ho)

/-! ## Permutations -/

/-- `π` and `σ` are inverse permutations of the numbers below `n`. -/
structure Bij (n : Nat) (π σ : Nat → Nat) : Prop where
  lt : ∀ j < n, π j < n
  lt' : ∀ i < n, σ i < n
  inv : ∀ j < n, σ (π j) = j
  inv' : ∀ i < n, π (σ i) = i

/-- The map that takes new element `j` from old element `π j`. -/
def mapOf (scatter : Bool) (n : Nat) (π σ : Nat → Nat) : List Nat := (List.range n).map (if scatter then σ else π)

theorem mapOf_length (scatter : Bool) (n : Nat) (π σ : Nat → Nat) : (mapOf scatter n π σ).length = n := by simp [mapOf]

/-- The goal of task `i`. -/
def goalOf (scatter : Bool) (σ : Nat → Nat) (i : Nat) : Nat := if scatter then σ i else i

theorem route_eq {n : Nat} {π σ : Nat → Nat} (h : Bij n π σ) (scatter : Bool) {i : Nat} (hi : i < n) :
    route scatter (mapOf scatter n π σ) i = some (π (goalOf scatter σ i), goalOf scatter σ i) ∧ goalOf scatter σ i < n := by
  cases scatter
  · simp [route, mapOf, goalOf, hi]
  · simp [route, mapOf, goalOf, hi, h.inv' i hi, h.lt' i hi]

theorem goalOf_inj {n : Nat} {π σ : Nat → Nat} (h : Bij n π σ) (scatter : Bool) {i j : Nat} (hi : i < n) (hj : j < n)
    (e : goalOf scatter σ i = goalOf scatter σ j) : i = j := by
  cases scatter
  · exact e
  · have e : σ i = σ j := e
    rw [← h.inv' i hi, e, h.inv' j hj]

theorem goalOf_surj {n : Nat} {π σ : Nat → Nat} (h : Bij n π σ) (scatter : Bool) {j : Nat} (hj : j < n) :
    ∃ i < n, goalOf scatter σ i = j := by
  cases scatter
  · exact ⟨j, hj, rfl⟩
  · exact ⟨π j, h.lt j hj, h.inv j hj⟩

variable {α : Type}

/-- All copies of a reordering. -/
theorem copy_all {n : Nat} {π σ : Nat → Nat} (h : Bij n π σ) (scatter : Bool) (src : List α) (hs : n ≤ src.length) :
    ∀ (order : List Nat) (out : List α), order.Nodup → (∀ i ∈ order, i < n) → n ≤ out.length →
      ∃ out', order.foldlM (copyTask scatter (mapOf scatter n π σ) src) out = some out' ∧ out'.length = out.length
        ∧ (∀ i ∈ order, out'[goalOf scatter σ i]? = src[π (goalOf scatter σ i)]?)
        ∧ ∀ j, (∀ i ∈ order, goalOf scatter σ i ≠ j) → out'[j]? = out[j]? := by
  intro order
  induction order with
  | nil => intro out _ _ _; exact ⟨out, rfl, rfl, by simp, fun _ _ => rfl⟩
  | cons i order ih =>
    intro out hnd hlt hout
    have hi : i < n := hlt i (by simp)
    obtain ⟨hr, hg⟩ := route_eq h scatter hi
    have hp : π (goalOf scatter σ i) < src.length := by have := h.lt _ hg; omega
    have hstep : copyTask scatter (mapOf scatter n π σ) src out i
        = some (out.set (goalOf scatter σ i) src[π (goalOf scatter σ i)]) := by
      have : goalOf scatter σ i < out.length := by omega
      simp [copyTask, hr, hp, this]
    obtain ⟨out', e, hl, hw, hk⟩ := ih (out.set (goalOf scatter σ i) src[π (goalOf scatter σ i)]) (List.nodup_cons.1 hnd).2
      (fun x hx => hlt x (by simp [hx])) (by rw [List.length_set]; exact hout)
    refine ⟨out', ?_, by rw [hl, List.length_set], ?_, ?_⟩
    · rw [List.foldlM_cons, hstep]; exact e
    · intro x hx
      rcases List.mem_cons.1 hx with rfl | hx
      · rw [hk]
        · rw [List.getElem?_set]
          have : goalOf scatter σ x < out.length := by omega
          simp [this, hp]
        · intro y hy e
          have := goalOf_inj h scatter (hlt y (by simp [hy])) hi e
          rw [this] at hy
          exact (List.nodup_cons.1 hnd).1 hy
      · exact hw x hx
    · intro j hj
      rw [hk j fun x hx => hj x (by simp [hx]), List.getElem?_set, if_neg (hj i (by simp))]

theorem launch_copy {n : Nat} {π σ : Nat → Nat} (h : Bij n π σ) (scatter : Bool) (src out : List α) (hs : n ≤ src.length)
    (ho : n ≤ out.length) :
    Good (launch n (copyTask scatter (mapOf scatter n π σ) src) out)
      fun out' => out'.length = out.length ∧ ∀ j < n, out'[j]? = src[π j]? := by
  refine Good.launch fun order hp => ?_
  obtain ⟨out', e, hl, hw, _⟩ := copy_all h scatter src hs order out (hp.nodup_iff.2 List.nodup_range)
    (fun i hi => List.mem_range.1 (hp.mem_iff.1 hi)) ho
  refine ⟨out', e, hl, fun j hj => ?_⟩
  obtain ⟨i, hi, rfl⟩ := goalOf_surj h scatter hj
  exact hw i (hp.mem_iff.2 (List.mem_range.2 hi))

theorem vec_reorder [Inhabited α] {n : Nat} {π σ : Nat → Nat} (h : Bij n π σ) (scatter : Bool) (v : Vec α) (hv : v.data.length = n)
    (hc : n ≤ v.cap) :
    Good (v.reorder scatter (mapOf scatter n π σ)) fun v' => v'.cap = v.cap ∧ v'.data.length = v.cap ∧ ∀ j < n, v'.data[j]? = v.data[π j]? := by
  rw [Vec.reorder, if_neg (by rw [mapOf_length, hv]; simp), mapOf_length]
  refine Good.bind (Good.pick ⟨List.replicate v.cap default, by simp⟩) fun fresh hf => ?_
  refine Good.bind (launch_copy h scatter v.data fresh (by omega) (by omega)) fun out ho => ?_
  exact Good.pure ⟨rfl, by rw [← hf]; exact ho.1, ho.2⟩

variable {V : Type}

theorem tiles_reorder {n : Nat} {π σ : Nat → Nat} (h : Bij n π σ) (scatter : Bool) (ts : List (List (List V))) (hv : ts.length = n) :
    Good (reorderTiles scatter (mapOf scatter n π σ) ts) fun ts' => ts'.length = n ∧ ∀ j < n, ts'[j]? = ts[π j]? := by
  rw [reorderTiles, if_neg (by rw [mapOf_length, hv]; simp), mapOf_length]
  refine Good.bind (Good.pick ⟨List.replicate ts.length [], by simp⟩) fun fresh hf => ?_
  refine (launch_copy h scatter ts fresh (by omega) (by omega)).mono fun out ho => ⟨?_, ho.2⟩
  rw [ho.1, hf, hv]

/-! ## The table -/

/-- The part of `LevelOk` about the table. -/
structure TabOk (c : Bht.Cfg Coord) (s : Bht.St Coord) : Prop where
  room : s.cnt ≤ c.size
  find : ∀ k b, k ≠ c.hole → (Bht.query c s k = some b ↔ b < s.cnt ∧ s.active b = k)
  keys : ∀ b < s.cnt, s.active b ≠ c.hole

theorem TabOk.slot {c : Bht.Cfg Coord} {s : Bht.St Coord} (h : TabOk c s) {b : Nat} (hb : b < s.cnt) :
    ∃ a, Bht.slotOf c s (s.active b) = some a ∧ s.keys a = s.active b ∧ s.indices a = b := by
  have := (h.find (s.active b) b (h.keys b hb)).2 ⟨hb, rfl⟩
  rw [Bht.query, Option.map_eq_some_iff] at this
  obtain ⟨a, ha, e⟩ := this
  exact ⟨a, ha, Bht.slotOf_some ha, e⟩

theorem TabOk.inj {c : Bht.Cfg Coord} {s : Bht.St Coord} (h : TabOk c s) {a b : Nat} (ha : a < s.cnt) (hb : b < s.cnt)
    (e : s.active a = s.active b) : a = b := by
  have h1 := (h.find (s.active a) a (h.keys a ha)).2 ⟨ha, rfl⟩
  have h2 := (h.find (s.active a) b (h.keys a ha)).2 ⟨hb, e.symm⟩
  rw [h1] at h2
  exact Option.some.inj h2

theorem remap_all {c : Bht.Cfg Coord} {s : Bht.St Coord} (hs : TabOk c s) {π σ : Nat → Nat} (h : Bij s.cnt π σ) (scatter : Bool) :
    ∀ (order : List Nat) (r : Remap), order.Nodup → (∀ i ∈ order, i < s.cnt) →
      ∃ r', order.foldlM (remapTask scatter (mapOf scatter s.cnt π σ) c s) r = some r' ∧ r'.success = r.success
        ∧ (∀ i ∈ order, r'.keys (goalOf scatter σ i) = s.active (π (goalOf scatter σ i))
          ∧ ∀ a, Bht.slotOf c s (s.active (π (goalOf scatter σ i))) = some a → r'.indices a = goalOf scatter σ i)
        ∧ (∀ j, (∀ i ∈ order, goalOf scatter σ i ≠ j) → r'.keys j = r.keys j)
        ∧ ∀ a, (∀ i ∈ order, Bht.slotOf c s (s.active (π (goalOf scatter σ i))) ≠ some a) → r'.indices a = r.indices a := by
  intro order
  induction order with
  | nil => intro r _ _; exact ⟨r, rfl, rfl, by simp, fun _ _ => rfl, fun _ _ => rfl⟩
  | cons i order ih =>
    intro r hnd hlt
    have hi := hlt i (by simp)
    obtain ⟨hr, hg⟩ := route_eq h scatter hi
    have hp := h.lt _ hg
    obtain ⟨a, ha, hka, _⟩ := hs.slot hp
    have hroom := hs.room
    have hstep : remapTask scatter (mapOf scatter s.cnt π σ) c s r i
        = some ⟨Bht.upd r.keys (goalOf scatter σ i) (s.active (π (goalOf scatter σ i))),
          Bht.upd r.indices a (goalOf scatter σ i), r.success⟩ := by
      rw [remapTask, hr, Option.bind_some, if_pos ⟨by show π (goalOf scatter σ i) < c.size; omega, by show goalOf scatter σ i < c.size; omega⟩]
      simp only [ha]
    have hother : ∀ y ∈ order, goalOf scatter σ y ≠ goalOf scatter σ i := by
      intro y hy e
      have := goalOf_inj h scatter (hlt y (by simp [hy])) hi e
      rw [this] at hy
      exact (List.nodup_cons.1 hnd).1 hy
    have hslot : ∀ y ∈ order, Bht.slotOf c s (s.active (π (goalOf scatter σ y))) ≠ some a := by
      intro y hy e
      have hgy := (route_eq h scatter (hlt y (by simp [hy]))).2
      have e1 := Bht.slotOf_some e
      rw [hka] at e1
      have e2 := hs.inj (h.lt _ hg) (h.lt _ hgy) e1
      apply hother y hy
      rw [← h.inv _ hgy, ← e2, h.inv _ hg]
    obtain ⟨r', e, hsuc, hw, hk, hx⟩ := ih ⟨Bht.upd r.keys (goalOf scatter σ i) (s.active (π (goalOf scatter σ i))),
      Bht.upd r.indices a (goalOf scatter σ i), r.success⟩ (List.nodup_cons.1 hnd).2 fun x hx => hlt x (by simp [hx])
    refine ⟨r', ?_, hsuc, ?_, ?_, ?_⟩
    · rw [List.foldlM_cons, hstep]; exact e
    · intro x hx'
      rcases List.mem_cons.1 hx' with rfl | hx'
      · constructor
        · rw [hk _ hother]
          exact Bht.upd_same ..
        · intro a' ha'
          rw [ha] at ha'
          cases ha'
          rw [hx a hslot]
          exact Bht.upd_same ..
      · exact hw x hx'
    · intro j hj
      rw [hk j fun x hx' => hj x (by simp [hx'])]
      exact Bht.upd_ne _ _ (fun e => hj i (by simp) e.symm)
    · intro a' ha'
      rw [hx a' fun x hx' => ha' x (by simp [hx'])]
      exact Bht.upd_ne _ _ (fun e => ha' i (by simp) (by rw [e]; exact ha))

/-- The table after a reordering. -/
theorem table_reorder {c : Bht.Cfg Coord} {s : Bht.St Coord} (hs : TabOk c s) {π σ : Nat → Nat} (h : Bij s.cnt π σ) (scatter : Bool) :
    Good (reorderTable scatter (mapOf scatter s.cnt π σ) c s) fun s' => TabOk c s' ∧ s'.cnt = s.cnt ∧ s'.success = s.success
      ∧ ∀ j < s.cnt, s'.active j = s.active (π j) := by
  rw [reorderTable, if_neg (by rw [mapOf_length]; simp)]
  refine Good.bind (Good.pick ⟨fun _ => [], trivial⟩) fun fresh _ => ?_
  refine Good.bind (P := fun r => (∀ j < s.cnt, r.keys j = s.active (π j)
    ∧ ∀ a, Bht.slotOf c s (s.active (π j)) = some a → r.indices a = j) ∧ r.success = s.success) ?_ ?_
  · refine Good.launch fun order hp => ?_
    obtain ⟨r', e, hsuc, hw, _⟩ := remap_all hs h scatter order ⟨fresh, s.indices, s.success⟩ (hp.nodup_iff.2 List.nodup_range)
      (fun i hi => List.mem_range.1 (hp.mem_iff.1 hi))
    refine ⟨r', e, fun j hj => ?_, hsuc⟩
    obtain ⟨i, hi, rfl⟩ := goalOf_surj h scatter hj
    exact hw i (hp.mem_iff.2 (List.mem_range.2 hi))
  · intro r ⟨hr, hsuc⟩
    refine Good.pure ⟨⟨hs.room, ?_, ?_⟩, rfl, hsuc, fun j hj => (hr j hj).1⟩
    · intro k b hk
      show (Bht.slotOf c s k).map r.indices = some b ↔ b < s.cnt ∧ r.keys b = k
      constructor
      · intro e
        rw [Option.map_eq_some_iff] at e
        obtain ⟨a, ha, e⟩ := e
        have hq : Bht.query c s k = some (s.indices a) := by rw [Bht.query, ha]; rfl
        obtain ⟨hlt, hact⟩ := (hs.find k _ hk).1 hq
        have := (hr _ (h.lt' _ hlt)).2 a (by rw [h.inv' _ hlt, hact]; exact ha)
        rw [← e, this]
        refine ⟨h.lt' _ hlt, ?_⟩
        rw [(hr _ (h.lt' _ hlt)).1, h.inv' _ hlt, hact]
      · rintro ⟨hb, e⟩
        rw [(hr b hb).1] at e
        obtain ⟨a, ha, _⟩ := hs.slot (h.lt b hb)
        have := (hr b hb).2 a ha
        rw [← e, ha]
        exact congrArg some this
    · intro b hb
      show r.keys b ≠ _
      rw [(hr b hb).1]
      exact hs.keys _ (h.lt b hb)

/-! ## A level -/

theorem LevelOk.notHole {lay : Layout} {dim i : Nat} {l : Level V} (h : LevelOk lay dim i l) (hv : lay.Valid dim) (hd : 0 < dim)
    (hi : i < lay.levels) (c : Coord) (hc : c.length = dim) : coordToKey lay i c ≠ l.cfg.hole := by
  rw [h.hole]; exact (key_ne_marker hv hi hd c hc).1

theorem LevelOk.tab {lay : Layout} {dim i : Nat} {l : Level V} (h : LevelOk lay dim i l) (hv : lay.Valid dim) (hd : 0 < dim)
    (hi : i < lay.levels) : TabOk l.cfg l.tab :=
  ⟨h.room, h.find, fun b hb => by rw [← h.aligned b hb]; exact h.notHole hv hd hi _ (h.length b hb)⟩

/-- `l'` is `l` with the blocks in another order. -/
structure Permuted (l l' : Level V) (π σ : Nat → Nat) : Prop where
  bij : Bij l.tab.cnt π σ
  cfg : l'.cfg = l.cfg
  cnt : l'.tab.cnt = l.tab.cnt
  active : ∀ j < l.tab.cnt, l'.tab.active j = l.tab.active (π j)
  tiles : ∀ j < l.tab.cnt, l'.tiles[j]? = l.tiles[π j]?
  valueMask : ∀ j < l.tab.cnt, l'.valueMask.data[j]? = l.valueMask.data[π j]?
  childMask : ∀ j < l.tab.cnt, l'.childMask.data[j]? = l.childMask.data[π j]?
  childOffset : l'.childOffset = l.childOffset
  success : l'.tab.success = l.tab.success
  caps : l'.valueMask.cap = l.valueMask.cap ∧ l'.childMask.cap = l.childMask.cap
    ∧ l'.valueMask.data.length = l.valueMask.cap ∧ l'.childMask.data.length = l.childMask.cap

theorem level_reorder {lay : Layout} {dim i : Nat} {l : Level V} (h : LevelOk lay dim i l) (hv : lay.Valid dim) (hd : 0 < dim)
    (hi : i < lay.levels) (hx : l.Exact) {π σ : Nat → Nat} (hb : Bij l.tab.cnt π σ) (scatter : Bool) :
    Good (l.reorder scatter (mapOf scatter l.tab.cnt π σ)) fun l' => Permuted l l' π σ ∧ LevelOk lay dim i l' := by
  refine Good.bind (table_reorder (h.tab hv hd hi) hb scatter) fun tab ht => ?_
  refine Good.bind (tiles_reorder hb scatter l.tiles h.tiles) fun tiles hts => ?_
  refine Good.bind (vec_reorder hb scatter l.valueMask hx.1 (by have := h.valuesCap; have := h.values; omega)) fun vm hvm => ?_
  refine Good.bind (vec_reorder hb scatter l.childMask hx.2 (by have := h.childsCap; have := h.childs; omega)) fun cm hcm => ?_
  obtain ⟨ht, hcnt, hsuc, hact⟩ := ht
  have h1 := h.valuesCap
  have h2 := h.values
  have h3 := h.childsCap
  have h4 := h.childs
  refine Good.pure ⟨⟨hb, rfl, hcnt, hact, hts.2, hvm.2.2, hcm.2.2, rfl, hsuc, hvm.1, hcm.1, hvm.2.1, hcm.2.1⟩, ?_⟩
  refine ⟨h.hole, ht.room, ht.find, ?_, ?_, ?_, ?_, ?_, ?_, ?_⟩
  · intro b hb'
    have hb' : b < tab.cnt := hb'
    rw [hcnt] at hb'
    show (tab.active b).length = dim
    rw [hact b hb']; exact h.length _ (hb.lt b hb')
  · intro b hb'
    have hb' : b < tab.cnt := hb'
    rw [hcnt] at hb'
    show coordToKey lay i (tab.active b) = tab.active b
    rw [hact b hb']; exact h.aligned _ (hb.lt b hb')
  · show tiles.length = tab.cnt
    rw [hts.1, hcnt]
  · show tab.cnt ≤ vm.data.length
    omega
  · show vm.data.length ≤ vm.cap
    omega
  · show tab.cnt ≤ cm.data.length
    omega
  · show cm.data.length ≤ cm.cap
    omega

end Verif.Grid
