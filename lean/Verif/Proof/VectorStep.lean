import Verif.Proof.Vector
/-! Every handled call of `Vector` keeps the invariant. -/
namespace Verif.Vector

variable {α : Type}

/-- A fresh block of `c` cells with the first `n` cells of `cells`. -/
def lay (cells : List (Option α)) (n c : Nat) : List (Option α) :=
  cells.take n ++ List.replicate (c - n) none

theorem lay_length (cells : List (Option α)) (n c : Nat) (h : n ≤ cells.length) (hc : n ≤ c) :
    (lay cells n c).length = c := by
  simp [lay]; omega

theorem lay_holds (cells l : List (Option α)) (c : Nat) (h : Holds cells l)
    (hl : l.length ≤ cells.length) : Holds (lay cells l.length c) l := by
  intro k x hk
  have h1 := h k x hk
  have h2 : k < l.length := (List.getElem?_eq_some_iff.1 hk).1
  rw [lay, List.getElem?_append_left (by simp; omega), List.getElem?_take_of_lt h2]
  exact h1

/-- `alloc` followed by the guarded copy of the old elements. -/
theorem copy_fresh {s : St α} {src n c : Nat} {cells : List (Option α)} (hc : s.heap src = some cells)
    (hs : src < s.next) (hn : n ≤ cells.length) (hnc : n ≤ c) :
    copy src 0 s.next 0 n (alloc c s).2 = some { s with
      heap := upd s.heap s.next (some (lay cells n c)), next := s.next + 1 } := by
  have h1 : (alloc c s).2.heap src = some cells := by
    simp only [alloc]
    rw [upd_ne _ _ _ _ (by omega)]
    exact hc
  have h2 : (alloc c s).2.heap s.next = some (List.replicate c none) := by
    simp only [alloc, upd_same]
  unfold copy
  rw [h1, h2]
  simp only [Option.bind_eq_bind, Option.bind_some, List.length_replicate, Option.pure_def]
  rw [if_pos ⟨by omega, by omega, fun h => by omega⟩]
  simp only [alloc, upd_upd, lay]
  simp

theorem copy_fresh_nz {s : St α} {src n c : Nat} {cells : List (Option α)}
    (hc : s.heap src = some cells) (hs : src < s.next) (hn : n ≤ cells.length) (hnc : n ≤ c) :
    copyFront src s.next n (alloc c s).2 = some { s with
      heap := upd s.heap s.next (some (lay cells n c)), next := s.next + 1 } := by
  unfold copyFront
  split
  · exact copy_fresh hc hs hn hnc
  · rename_i h
    have : n = 0 := by omega
    subst this
    simp [alloc, lay]

theorem growth_ge (n c : Nat) : n ≤ growth n c := by
  unfold growth; dsimp only; split <;> omega

theorem alignUp_ge (n al : Nat) : n ≤ alignUp n al := by
  unfold alignUp; dsimp only; split <;> omega

theorem specResize_length (l : List (Option α)) (n : Nat) (x : Option α) :
    (specResize l n x).length = n := by
  simp [specResize]; omega

theorem holds_fill (cells l : List (Option α)) (n : Nat) (x : α) (h : Holds cells l)
    (hl : l.length ≤ n) (hn : n ≤ cells.length) :
    Holds (cells.take l.length ++ List.replicate (n - l.length) (some x) ++
      cells.drop (l.length + (n - l.length))) (specResize l n (some x)) := by
  intro k y hk
  rw [specResize, List.take_of_length_le hl] at hk
  by_cases hk1 : k < l.length
  · rw [List.getElem?_append_left hk1] at hk
    rw [List.append_assoc, List.getElem?_append_left (by simp; omega), List.getElem?_take_of_lt hk1]
    exact h k y hk
  · rw [List.getElem?_append_right (by omega)] at hk
    have h2 : k - l.length < n - l.length := by
      have := (List.getElem?_eq_some_iff.1 hk).1
      simpa using this
    rw [List.append_assoc, List.getElem?_append_right (by simp; omega),
      List.getElem?_append_left (by simp; omega)]
    simp only [List.length_take, Nat.min_eq_left (show l.length ≤ cells.length by omega)]
    exact hk

theorem holds_specResize_none (cells l : List (Option α)) (n : Nat) (h : Holds cells l) :
    Holds cells (specResize l n none) := by
  intro k y hk
  rw [specResize] at hk
  by_cases hk1 : k < (l.take n).length
  · rw [List.getElem?_append_left hk1] at hk
    rw [List.length_take] at hk1
    rw [List.getElem?_take_of_lt (by omega)] at hk
    exact h k y hk
  · rw [List.getElem?_append_right (by omega)] at hk
    have := List.mem_of_getElem? hk
    simp at this

theorem holds_specResize_shrink (cells l : List (Option α)) (n : Nat) (x : Option α) (h : Holds cells l)
    (hn : n ≤ l.length) : Holds cells (specResize l n x) := by
  intro k y hk
  rw [specResize, Nat.sub_eq_zero_of_le hn] at hk
  simp only [List.replicate_zero, List.append_nil] at hk
  have h1 : k < n := by
    have := (List.getElem?_eq_some_iff.1 hk).1
    rw [List.length_take] at this
    omega
  rw [List.getElem?_take_of_lt h1] at hk
  exact h k y hk

theorem specResize_self (l : List (Option α)) (x : Option α) : specResize l l.length x = l := by
  simp [specResize]

/-- `resize` and its variants. -/
theorem resize_spec {s : St α} {a : Abs α} (h : Inv s a) {i n al : Nat} {ch : Option α} {v : Vec}
    {l : List (Option α)} (hv : s.obj i = some v) (hl : a i = some l) :
    ∃ s' v', resize i n al ch s = some s' ∧ Inv s' (upd a i (some (specResize l n ch))) ∧
      s'.obj = upd s.obj i (some v') ∧ v'.size = n ∧
      (n ≤ v.cap → v'.base = v.base ∧ v'.cap = v.cap) ∧
      (v.cap < n → v'.cap = alignUp (growth n v.cap) al) := by
  obtain ⟨l', hl', cells, hc, hcap, hsz, hlen, hh⟩ := h.own i v hv
  rw [hl] at hl'
  cases hl'
  unfold resize
  rw [hv]
  simp only [Option.bind_eq_bind, Option.bind_some, Option.pure_def]
  by_cases h1 : n < v.size
  · rw [if_pos h1]
    refine ⟨_, _, rfl, ?_, rfl, rfl, fun _ => ⟨rfl, rfl⟩, fun h => by omega⟩
    have := inv_inplace h hv hcap (n := n) (l' := specResize l n ch) (by omega)
      (specResize_length ..) (holds_specResize_shrink _ _ _ _ hh (by omega))
    rwa [show upd s.heap v.base (some cells) = s.heap from by rw [← hc]; exact upd_self ..] at this
  rw [if_neg h1]
  by_cases h2 : n > v.size
  rotate_left
  · rw [if_neg h2]
    have hn : n = v.size := by omega
    subst hn
    refine ⟨s, v, rfl, ?_, by rw [← hv]; exact (upd_self ..).symm, rfl, fun _ => ⟨rfl, rfl⟩,
      fun h => by omega⟩
    rw [← hlen, specResize_self, ← hl, upd_self]
    exact h
  rw [if_pos h2]
  by_cases h3 : n > v.cap
  rotate_left
  · rw [if_neg h3]
    cases ch with
    | none =>
      refine ⟨_, _, rfl, ?_, rfl, rfl, fun _ => ⟨rfl, rfl⟩, fun h => by omega⟩
      have := inv_inplace h hv hcap (n := n) (l' := specResize l n none) (by omega)
        (specResize_length ..) (holds_specResize_none _ _ _ hh)
      rwa [show upd s.heap v.base (some cells) = s.heap from by rw [← hc]; exact upd_self ..] at this
    | some x =>
      have hf : fill v.base v.size (n - v.size) x s = some { s with
          heap := upd s.heap v.base (some (cells.take v.size ++ List.replicate (n - v.size) (some x) ++
            cells.drop (v.size + (n - v.size)))) } := by
        unfold fill
        rw [hc]
        simp only [Option.bind_eq_bind, Option.bind_some, Option.pure_def]
        rw [if_pos (by omega)]
      simp only [fillOpt]
      rw [hf]
      refine ⟨_, _, rfl, ?_, rfl, rfl, fun _ => ⟨rfl, rfl⟩, fun h => by omega⟩
      refine inv_inplace h hv ?_ (by omega) (specResize_length ..) ?_
      · simp; omega
      · rw [← hlen]
        exact holds_fill _ _ _ _ hh (by omega) (by omega)
  rw [if_pos h3]
  have hgrow : n ≤ alignUp (growth n v.cap) al := Nat.le_trans (growth_ge ..) (alignUp_ge ..)
  generalize hC : alignUp (growth n v.cap) al = C at hgrow ⊢
  have ha : (alloc C s).1 = s.next := rfl
  have hb := h.base_lt hv
  rw [ha, copy_fresh_nz hc hb (by omega) (by omega)]
  simp only [Option.bind_some]
  -- the cells of the new block
  have hnew : ∃ cells', fillOpt s.next v.size (n - v.size) ch { s with
          heap := upd s.heap s.next (some (lay cells v.size C)), next := s.next + 1 } =
        some { s with heap := upd s.heap s.next (some cells'), next := s.next + 1 } ∧
      cells'.length = C ∧ Holds cells' (specResize l n ch) := by
    have hll := lay_length cells v.size C (by omega) (by omega)
    have hlh : Holds (lay cells v.size C) l := by
      rw [← hlen]; exact lay_holds _ _ _ hh (by omega)
    cases ch with
    | none => exact ⟨_, rfl, hll, holds_specResize_none _ _ _ hlh⟩
    | some x =>
      refine ⟨_, ?_, ?_, holds_fill _ _ n x hlh (by omega) (by omega)⟩
      · unfold fillOpt fill
        simp only [upd_same, Option.bind_eq_bind, Option.bind_some, Option.pure_def, upd_upd]
        rw [if_pos (by omega), hlen]
      · simp; omega
  obtain ⟨cells', e1, e2, e3⟩ := hnew
  rw [e1]
  simp only [Option.bind_some]
  have hcells : (upd s.heap s.next (some cells')) v.base = some cells := by
    rw [upd_ne _ _ _ _ (by omega)]; exact hc
  rw [destroy_eq (cells := cells) (by exact hcells)]
  refine ⟨_, ⟨s.next, n, C⟩, rfl, ?_, rfl, rfl, fun h => by omega, fun _ => rfl⟩
  refine inv_replace h (v := ⟨s.next, n, C⟩) rfl (Nat.le_refl _) (cells := cells') ?_ e2 hgrow
    (specResize_length ..) e3 ?_ ?_ ?_ ?_
  · dsimp only
    split
    · rw [upd_ne _ _ _ _ (by omega), upd_same]
    · rw [upd_same]
  · intro j w hj hw
    have h5 := h.base_lt hw
    have h6 : w.base ≠ v.base := fun he => hj (h.inj _ _ _ _ hw hv he)
    dsimp only
    split
    · rw [upd_ne _ _ _ _ h6, upd_ne _ _ _ _ (by omega)]
    · rw [upd_ne _ _ _ _ (by omega)]
  · intro w hw hcw
    rw [hv] at hw
    cases hw
    dsimp only
    rw [if_pos (by omega), upd_same]
  · intro b hb c hbc _
    dsimp only at hb hbc
    split at hbc
    · unfold upd at hbc
      split at hbc
      · exact absurd hbc (by simp)
      · first | exact hbc | (rw [upd_ne _ _ _ _ hb] at hbc; exact hbc)
    · rw [upd_ne _ _ _ _ hb] at hbc; exact hbc
  · intro b hb'
    dsimp only at hb' ⊢
    have := h.fresh b (by omega)
    split
    · rw [upd_ne _ _ _ _ (by omega), upd_ne _ _ _ _ (by omega)]; exact this
    · rw [upd_ne _ _ _ _ (by omega)]; exact this

/-- Storing into a visible cell. -/
theorem store_spec {s : St α} {a : Abs α} (h : Inv s a) {i k : Nat} {v : Vec} {l : List (Option α)}
    {x y : Option α} (hv : s.obj i = some v) (hl : a i = some l) (hk : k < l.length)
    (hxy : ∀ z, x = some z → y = some z) :
    ∃ s', store v.base k y s = some s' ∧ Inv s' (upd a i (some (l.set k x))) := by
  obtain ⟨l', hl', cells, hc, hcap, hsz, hlen, hh⟩ := h.own i v hv
  rw [hl] at hl'
  cases hl'
  have he : store v.base k y s = some { s with heap := upd s.heap v.base (some (cells.set k y)) } := by
    unfold store
    rw [hc]
    simp only [Option.bind_eq_bind, Option.bind_some, Option.pure_def]
    rw [if_pos (by omega)]
  refine ⟨_, he, ?_⟩
  have := inv_inplace h hv (cells := cells.set k y) (l' := l.set k x) (n := v.size) (by simpa) hsz
    (by simpa) ?_
  · rwa [show upd s.obj i (some { v with size := v.size }) = s.obj from by
      rw [show ({ v with size := v.size } : Vec) = v from rfl, ← hv]; exact upd_self ..] at this
  · intro q z hq
    rw [List.getElem?_set] at hq ⊢
    split at hq
    · rename_i hkq
      subst hkq
      rw [if_pos rfl, if_pos (by omega)]
      rw [hxy z (Option.some.inj hq)]
    · rename_i hkq
      rw [if_neg hkq]
      exact hh q z hq

theorem load_spec {s : St α} {a : Abs α} (h : Inv s a) {i k : Nat} {v : Vec} {l : List (Option α)}
    (hv : s.obj i = some v) (hl : a i = some l) (hk : k < l.length) :
    ∃ y, load v.base k s = some y ∧ ∀ z, l[k]? = some (some z) → y = some z := by
  obtain ⟨l', hl', cells, hc, hcap, hsz, hlen, hh⟩ := h.own i v hv
  rw [hl] at hl'
  cases hl'
  have hk' : k < cells.length := by omega
  refine ⟨cells[k], ?_, fun z hz => ?_⟩
  · unfold load
    rw [hc]
    simp [hk']
  · have := hh k z hz
    rw [List.getElem?_eq_getElem hk'] at this
    exact Option.some.inj this

theorem specResize_set (l : List (Option α)) (x : Option α) :
    (specResize l (l.length + 1) none).set l.length x = l ++ [x] := by
  rw [specResize, List.take_of_length_le (by omega)]
  simp

theorem push_spec {s : St α} {a : Abs α} (h : Inv s a) {i : Nat} {x : α} {l : List (Option α)}
    (hl : a i = some l) :
    ∃ s', push i x s = some s' ∧ Inv s' (upd a i (some (l ++ [some x]))) := by
  obtain ⟨v, hv, cells, hc, hcap, hsz, hlen, hh⟩ := h.alive hl
  obtain ⟨s1, v1, e1, e2, e3, e4, _⟩ := resize_spec h (n := v.size + 1) (al := 1) (ch := none) hv hl
  have hv1 : s1.obj i = some v1 := by rw [e3, upd_same]
  obtain ⟨s2, f1, f2⟩ := store_spec e2 (k := v.size) (x := some x) (y := some x) hv1 (upd_same ..)
    (by rw [specResize_length]; omega) (fun _ h => h)
  refine ⟨s2, ?_, ?_⟩
  · unfold push
    rw [hv]
    simp only [Option.bind_eq_bind, Option.bind_some]
    rw [e1]
    simp only [Option.bind_some]
    rw [hv1]
    exact f1
  · rw [upd_upd, ← hlen, specResize_set] at f2
    exact f2

theorem pushOwn_spec {s : St α} {a : Abs α} (h : Inv s a) {i k : Nat} {x : Option α}
    {l : List (Option α)} (hl : a i = some l) (hx : l[k]? = some x)
    (hroom : ∀ v, s.obj i = some v → v.size < v.cap) :
    ∃ s', pushOwn i k s = some s' ∧ Inv s' (upd a i (some (l ++ [x]))) := by
  obtain ⟨v, hv, cells, hc, hcap, hsz, hlen, hh⟩ := h.alive hl
  have hr := hroom v hv
  obtain ⟨hk, hxk⟩ := List.getElem?_eq_some_iff.1 hx
  obtain ⟨s1, v1, e1, e2, e3, e4, e5, _⟩ :=
    resize_spec h (n := v.size + 1) (al := 1) (ch := none) hv hl
  have hb := (e5 (by omega)).1
  have hv1 : s1.obj i = some v1 := by rw [e3, upd_same]
  obtain ⟨y, g1, g2⟩ := load_spec e2 (k := k) hv1 (upd_same ..) (by rw [specResize_length]; omega)
  obtain ⟨s2, f1, f2⟩ := store_spec e2 (k := v.size) (x := x) (y := y) hv1 (upd_same ..)
    (by rw [specResize_length]; omega) (fun z hz => g2 z (by
      rw [specResize, List.take_of_length_le (by omega), List.getElem?_append_left hk, hx, hz]))
  refine ⟨s2, ?_, ?_⟩
  · unfold pushOwn
    rw [hv]
    simp only [Option.bind_eq_bind, Option.bind_some]
    rw [e1]
    simp only [Option.bind_some]
    rw [hv1]
    simp only [Option.bind_some]
    rw [← hb, g1]
    exact f1
  · rw [upd_upd, ← hlen, specResize_set] at f2
    exact f2

theorem append_spec {s : St α} {a : Abs α} (h : Inv s a) {i j : Nat} {l m : List (Option α)}
    (hl : a i = some l) (hm : a j = some m) :
    ∃ s', append i j s = some s' ∧ Inv s' (upd a i (some (l ++ m))) := by
  obtain ⟨v, hv, cells, hc, hcap, hsz, hlen, hh⟩ := h.alive hl
  obtain ⟨o, ho, ocells, hoc, hocap, hosz, holen, hoh⟩ := h.alive hm
  unfold append
  rw [hv, ho]
  simp only [Option.bind_eq_bind, Option.bind_some, Option.pure_def]
  by_cases h0 : o.size = 0
  · rw [if_pos h0]
    refine ⟨s, rfl, ?_⟩
    have : m = [] := List.length_eq_zero_iff.1 (by omega)
    rw [this, List.append_nil, ← hl, upd_self]
    exact h
  rw [if_neg h0]
  obtain ⟨s1, v1, e1, e2, e3, e4, e5, e6⟩ :=
    resize_spec h (n := v.size + o.size) (al := 1) (ch := none) hv hl
  have hif : makeRoom i v o.size s = some s1 := by
    unfold makeRoom
    split
    · exact e1
    · rw [← e1]
      unfold resize
      rw [hv]
      simp only [Option.bind_eq_bind, Option.bind_some, Option.pure_def]
      rw [if_neg (by omega), if_pos (by omega), if_neg (by omega)]
      rfl
  have hv1 : s1.obj i = some v1 := by rw [e3, upd_same]
  obtain ⟨l1, hl1, c1, k1, k2, k3, k4, k5⟩ := e2.own i v1 hv1
  rw [upd_same] at hl1
  cases hl1
  -- the source in the new state
  have hsrc : ∃ o' c', s1.obj j = some o' ∧ s1.heap o'.base = some c' ∧ o.size ≤ c'.length ∧
      Holds c' m ∧ (o'.base = v1.base → o.size ≤ v.size) := by
    by_cases hij : j = i
    · subst hij
      rw [hl] at hm; cases hm
      refine ⟨v1, c1, hv1, k1, ?_, ?_, ?_⟩
      · rw [hv] at ho; cases ho; omega
      · intro q z hq
        refine k5 q z ?_
        have hq' := (List.getElem?_eq_some_iff.1 hq).1
        rw [specResize, List.take_of_length_le (by omega), List.getElem?_append_left hq']
        exact hq
      · intro _; rw [hv] at ho; cases ho; exact Nat.le_refl _
    · have hoj : s1.obj j = some o := by rw [e3, upd_ne _ _ _ _ hij]; exact ho
      obtain ⟨l2, hl2, c2, q1, q2, q3, q4, q5⟩ := e2.own j o hoj
      rw [upd_ne _ _ _ _ hij, hm] at hl2
      cases hl2
      exact ⟨o, c2, hoj, q1, by omega, q5, fun he => absurd (e2.inj _ _ _ _ hoj hv1 he) hij⟩
  obtain ⟨o', c', g1, g2, g3, g4, g5⟩ := hsrc
  rw [hif]
  simp only [Option.bind_some]
  rw [hv1, g1]
  simp only [Option.bind_some]
  have he : copy o'.base 0 v1.base v.size o.size s1 = some { s1 with
      heap := upd s1.heap v1.base (some (c1.take v.size ++ c'.take o.size ++ c1.drop (v.size + o.size))) } := by
    unfold copy
    rw [g2, k1]
    simp only [Option.bind_eq_bind, Option.bind_some, Option.pure_def]
    rw [if_pos ⟨by omega, by omega, fun hx => Or.inl (by have := g5 hx; omega)⟩]
    simp
  refine ⟨_, he, ?_⟩
  have := inv_inplace e2 hv1 (cells := c1.take v.size ++ c'.take o.size ++ c1.drop (v.size + o.size))
    (l' := l ++ m) (n := v1.size) (by simp; omega) k3 (by simp; omega) ?_
  · rw [upd_upd] at this
    rwa [show upd s1.obj i (some { v1 with size := v1.size }) = s1.obj from by
      rw [show ({ v1 with size := v1.size } : Vec) = v1 from rfl, ← hv1]; exact upd_self ..] at this
  · intro q z hq
    by_cases hq1 : q < l.length
    · rw [List.getElem?_append_left hq1] at hq
      rw [List.append_assoc, List.getElem?_append_left (by simp; omega),
        List.getElem?_take_of_lt (by omega)]
      refine k5 q z ?_
      rw [specResize, List.take_of_length_le (by omega), List.getElem?_append_left hq1]
      exact hq
    · rw [List.getElem?_append_right (by omega)] at hq
      have hq2 := (List.getElem?_eq_some_iff.1 hq).1
      rw [List.append_assoc, List.getElem?_append_right (by simp; omega),
        List.getElem?_append_left (by simp; omega), List.getElem?_take_of_lt (by simp; omega)]
      rw [show q - (List.take v.size c1).length = q - l.length from by simp; omega]
      exact g4 _ z hq

/-- A new object whose block is a copy of (a prefix of) another one. -/
theorem inv_new {s : St α} {a : Abs α} (h : Inv s a) {i : Nat} {cells l : List (Option α)} {c : Nat}
    (hi : s.obj i = none) (hc : cells.length = c) (hl : l.length ≤ c) (hh : Holds cells l) :
    Inv { s with
      heap := upd s.heap s.next (some cells)
      next := s.next + 1
      obj := upd s.obj i (some ⟨s.next, l.length, c⟩) } (upd a i (some l)) := by
  refine inv_replace h (v := ⟨s.next, l.length, c⟩) rfl (Nat.le_refl _) (cells := cells)
    (upd_same ..) hc hl rfl hh ?_ ?_ ?_ ?_
  · intro j w _ hw
    have := h.base_lt hw
    dsimp only
    rw [upd_ne _ _ _ _ (by omega)]
  · intro w hw
    rw [hi] at hw
    exact absurd hw (by simp)
  · intro b hb c' hbc _
    dsimp only at hb hbc
    rw [upd_ne _ _ _ _ hb] at hbc
    exact hbc
  · intro b hb
    dsimp only at hb ⊢
    rw [upd_ne _ _ _ _ (by omega)]
    exact h.fresh b (by omega)

theorem ctor_spec {s : St α} {a : Abs α} (h : Inv s a) {i n : Nat} (hi : a i = none) :
    ∃ s', ctor i n s = some s' ∧ Inv s' (upd a i (some (List.replicate n none))) := by
  have hn := h.notAlive hi
  unfold ctor
  rw [hn]
  refine ⟨_, rfl, ?_⟩
  have := inv_new h (i := i) (cells := List.replicate n none) (l := List.replicate n none) (c := n) hn
    (by simp) (by simp) (fun _ _ h => h)
  simp only [List.length_replicate] at this
  exact this

theorem copyOf_eq {s : St α} {a : Abs α} (h : Inv s a) {j : Nat} {o : Vec} {cells : List (Option α)}
    (ho : s.obj j = some o) (hc : s.heap o.base = some cells) (hcap : cells.length = o.cap)
    (hsz : o.size ≤ o.cap) :
    copyOf o s = some (⟨s.next, o.size, o.cap⟩, { s with
      heap := upd s.heap s.next (some (lay cells o.size o.cap)), next := s.next + 1 }) := by
  unfold copyOf
  have h1 := copy_fresh_nz (c := o.cap) hc (h.base_lt ho) (n := o.size) (by omega) hsz
  simp only [Option.bind_eq_bind, Option.pure_def]
  rw [show (alloc o.cap s).1 = s.next from rfl, h1]
  rfl

theorem copyCtor_spec {s : St α} {a : Abs α} (h : Inv s a) {i j : Nat} {m : List (Option α)}
    (hi : a i = none) (hm : a j = some m) :
    ∃ s', copyCtor i j s = some s' ∧ Inv s' (upd a i (some m)) := by
  have hn := h.notAlive hi
  obtain ⟨o, ho, cells, hc, hcap, hsz, hlen, hh⟩ := h.alive hm
  unfold copyCtor
  rw [hn, ho]
  simp only [Option.bind_eq_bind, Option.bind_some, Option.pure_def]
  rw [copyOf_eq h ho hc hcap hsz]
  refine ⟨_, rfl, ?_⟩
  have := inv_new h (i := i) (cells := lay cells o.size o.cap) (l := m) (c := o.cap) hn
    (lay_length _ _ _ (by omega) hsz) (by omega) (by rw [← hlen]; exact lay_holds _ _ _ hh (by omega))
  rw [hlen] at this
  exact this

theorem clone_spec {s : St α} {a : Abs α} (h : Inv s a) {i j : Nat} {m : List (Option α)}
    (hi : a i = none) (hm : a j = some m) :
    ∃ s', clone i j s = some s' ∧ Inv s' (upd a i (some m)) := by
  have hn := h.notAlive hi
  obtain ⟨o, ho, cells, hc, hcap, hsz, hlen, hh⟩ := h.alive hm
  unfold clone
  rw [hn, ho]
  simp only [Option.bind_eq_bind, Option.bind_some, Option.pure_def]
  rw [show (alloc o.size s).1 = s.next from rfl,
    copy_fresh (c := o.size) hc (h.base_lt ho) (n := o.size) (by omega) (Nat.le_refl _)]
  refine ⟨_, rfl, ?_⟩
  have := inv_new h (i := i) (cells := lay cells o.size o.size) (l := m) (c := o.size) hn
    (lay_length _ _ _ (by omega) (Nat.le_refl _)) (by omega)
    (by rw [← hlen]; exact lay_holds _ _ _ hh (by omega))
  rw [hlen] at this
  exact this

/-- An object gets a new block and its old one is freed. -/
theorem inv_renew {s : St α} {a : Abs α} (h : Inv s a) {i : Nat} {v : Vec}
    {cells l : List (Option α)} {c k : Nat} {rest : Nat → Option (List (Option α))}
    (hv : s.obj i = some v) (hc : cells.length = c) (hl : l.length ≤ c) (hh : Holds cells l)
    (hk : s.next < k) (hrest : ∀ b, b ≠ s.next → b < k → s.next ≤ b → rest b = some [])
    (hrest' : ∀ b, k ≤ b → rest b = none) (hrest'' : ∀ b, b < s.next → rest b = s.heap b)
    (hrn : rest s.next = some cells) :
    ∃ s', destroy v { s with
      heap := rest
      next := k
      obj := upd s.obj i (some ⟨s.next, l.length, c⟩) } = some s' ∧ Inv s' (upd a i (some l)) := by
  obtain ⟨l0, hl0, cells0, hc0, hcap0, hsz0, hlen0, hh0⟩ := h.own i v hv
  have hb := h.base_lt hv
  rw [destroy_eq (cells := cells0) (by dsimp only; rw [hrest'' _ hb]; exact hc0)]
  refine ⟨_, rfl, ?_⟩
  refine inv_replace h (v := ⟨s.next, l.length, c⟩) rfl (Nat.le_refl _) (cells := cells)
    ?_ hc hl rfl hh ?_ ?_ ?_ ?_
  · dsimp only
    split
    · rw [upd_ne _ _ _ _ (by omega)]; exact hrn
    · exact hrn
  · intro j w hj hw
    have h5 := h.base_lt hw
    have h6 : w.base ≠ v.base := fun he => hj (h.inj _ _ _ _ hw hv he)
    dsimp only
    split
    · rw [upd_ne _ _ _ _ h6]; exact hrest'' _ h5
    · exact hrest'' _ h5
  · intro w hw hcw
    rw [hv] at hw
    cases hw
    dsimp only
    rw [if_pos (by omega), upd_same]
  · intro b hb c' hbc hne
    dsimp only at hb hbc
    have hbc' : rest b = some c' := by
      split at hbc
      · unfold upd at hbc
        split at hbc
        · exact absurd hbc (by simp)
        · exact hbc
      · exact hbc
    by_cases h1 : b < s.next
    · rw [← hrest'' b h1]; exact hbc'
    · by_cases h2 : b < k
      · rw [hrest b hb h2 (by omega)] at hbc'
        exact absurd (Option.some.inj hbc').symm hne
      · rw [hrest' b (by omega)] at hbc'
        exact absurd hbc' (by simp)
  · intro b hb'
    dsimp only at hb' ⊢
    have := hrest' b hb'
    split
    · rw [upd_ne _ _ _ _ (by omega)]; exact this
    · exact this

theorem copyAssign_spec {s : St α} {a : Abs α} (h : Inv s a) {i j : Nat} {l m : List (Option α)}
    (hl : a i = some l) (hm : a j = some m) :
    ∃ s', copyAssign i j s = some s' ∧ Inv s' (upd a i (some m)) := by
  obtain ⟨v, hv, _⟩ := h.alive hl
  obtain ⟨o, ho, cells, hc, hcap, hsz, hlen, hh⟩ := h.alive hm
  unfold copyAssign
  by_cases hij : i = j
  · subst hij
    rw [if_pos rfl, hv]
    refine ⟨s, rfl, ?_⟩
    rw [← hm, upd_self]
    exact h
  rw [if_neg hij, hv, ho]
  simp only [Option.bind_eq_bind, Option.bind_some]
  rw [copyOf_eq h ho hc hcap hsz]
  simp only [Option.bind_some]
  have := inv_renew h (l := m) (cells := lay cells o.size o.cap) (c := o.cap) (k := s.next + 1)
    (rest := upd s.heap s.next (some (lay cells o.size o.cap))) hv
    (lay_length _ _ _ (by omega) hsz) (by omega) (by rw [← hlen]; exact lay_holds _ _ _ hh (by omega))
    (by omega) (fun b _ _ _ => by omega)
    (fun b hb => by rw [upd_ne _ _ _ _ (by omega)]; exact h.fresh b (by omega))
    (fun b hb => upd_ne _ _ _ _ (by omega)) (upd_same ..)
  rw [hlen] at this
  exact this

theorem moveCtor_spec {s : St α} {a : Abs α} (h : Inv s a) {i j : Nat} {m : List (Option α)}
    (hi : a i = none) (hm : a j = some m) :
    ∃ s', moveCtor i j s = some s' ∧ Inv s' (upd (upd a j (some [])) i (some m)) := by
  have hn := h.notAlive hi
  obtain ⟨o, ho, _⟩ := h.alive hm
  have hij : i ≠ j := by rintro rfl; rw [hi] at hm; exact absurd hm (by simp)
  unfold moveCtor
  rw [hn, ho]
  simp only [Option.bind_eq_bind, Option.bind_some, Option.pure_def]
  refine ⟨_, rfl, ?_⟩
  have h1 := inv_new h (i := i) (cells := []) (l := []) (c := 0) hn rfl (by simp) (fun _ _ h => h)
  have h2 := inv_swap h1 (i := j) (j := i) (v := o) (w := ⟨s.next, 0, 0⟩) (l := m) (m := [])
    (by dsimp only; rw [upd_ne _ _ _ _ (Ne.symm hij)]; exact ho) (upd_same ..)
    (by rw [upd_ne _ _ _ _ (Ne.symm hij)]; exact hm) (upd_same ..)
  dsimp only at h2
  rw [upd_comm _ j i _ _ (Ne.symm hij), upd_upd, upd_comm _ i j _ _ hij,
    upd_comm (upd a i (some [])) j i _ _ (Ne.symm hij), upd_upd, upd_comm _ i j _ _ hij] at h2
  exact h2

theorem moveAssign_spec {s : St α} {a : Abs α} (h : Inv s a) {i j : Nat} {l m : List (Option α)}
    (hl : a i = some l) (hm : a j = some m) :
    ∃ s', moveAssign i j s = some s' ∧
      Inv s' (if i = j then a else upd (upd a j (some [])) i (some m)) := by
  obtain ⟨v, hv, _, hvc, _⟩ := h.alive hl
  obtain ⟨o, ho, _⟩ := h.alive hm
  unfold moveAssign
  by_cases hij : i = j
  · rw [if_pos hij, if_pos hij, hv]
    exact ⟨s, rfl, h⟩
  rw [if_neg hij, if_neg hij, hv, ho]
  simp only [Option.bind_eq_bind, Option.bind_some]
  obtain ⟨s1, e1, e2, e3, e4, e5⟩ := inv_dtor h hv
  obtain ⟨s2, f1, f2⟩ := moveCtor_spec e2 (i := i) (j := j) (m := m) (upd_same ..)
    (by rw [upd_ne _ _ _ _ (Ne.symm hij)]; exact hm)
  refine ⟨s2, ?_, ?_⟩
  · rw [← f1]
    unfold moveCtor
    rw [e4, upd_same, upd_ne _ _ _ _ (Ne.symm hij), ho]
    simp only [Option.bind_eq_bind, Option.bind_some, Option.pure_def]
    have hb := h.base_lt hv
    rw [destroy_eq (by simp only [alloc]; rw [upd_ne _ _ _ _ (by omega)]; exact hvc)]
    congr 1
    simp only [alloc, e3, e4, e5, List.replicate_zero]
    congr 1
    · split
      · exact upd_comm _ _ _ _ _ (by omega)
      · rfl
    · rw [upd_comm _ i j _ _ hij, upd_upd]
  · rw [upd_comm _ i j _ _ hij, upd_upd] at f2
    exact f2

theorem reorder_loop (s : St α) (vs b : Nat) (m : Nat → Nat) (cells : List (Option α)) (c : Nat)
    (hne : vs ≠ b) (hc : s.heap vs = some cells) (hb : s.heap b = some (List.replicate c none)) (n : Nat)
    (hn : n ≤ c) (hm : ∀ k, k < n → m k < cells.length) :
    (List.range n).foldlM (gatherStep vs b m) s = some { s with
      heap := upd s.heap b (some ((List.range n).map (fun k => (cells[m k]?).getD none) ++ List.replicate (c - n) none)) } := by
  induction n with
  | zero =>
    simp only [List.range_zero, List.foldlM_nil, Option.pure_def, List.map_nil, List.nil_append,
      Nat.sub_zero]
    rw [← hb, upd_self]
  | succ n ih =>
    rw [List.range_succ, List.foldlM_append, ih (by omega) (fun k hk => hm k (by omega))]
    have h1 := hm n (by omega)
    simp only [List.foldlM_cons, List.foldlM_nil, Option.bind_eq_bind, Option.bind_some,
      Option.pure_def, gatherStep, load, store]
    rw [upd_ne _ _ _ _ hne, hc]
    simp only [Option.bind_some, upd_same, upd_upd]
    rw [List.getElem?_eq_getElem h1]
    simp only [Option.bind_some]
    rw [if_pos (by simp; omega)]
    simp only [Option.bind_some]
    congr 3
    rw [List.map_append, List.set_append_right _ _ (by simp)]
    simp only [List.length_map, List.length_range, Nat.sub_self, List.append_assoc]
    congr 1
    rw [show c - n = (c - (n + 1)) + 1 by omega, List.replicate_succ]
    simp [List.getElem?_eq_getElem h1]

theorem reorder_spec {s : St α} {a : Abs α} (h : Inv s a) {i : Nat} {m : Nat → Nat}
    {l : List (Option α)} (hl : a i = some l) (hm : ∀ k, k < l.length → m k < l.length)
    (hfull : ∀ v, s.obj i = some v → v.size = v.cap) :
    ∃ s', reorder i m s = some s' ∧
      Inv s' (upd a i (some ((List.range l.length).map fun k => (l[m k]?).getD none))) := by
  obtain ⟨v, hv, cells, hc, hcap, hsz, hlen, hh⟩ := h.alive hl
  have hf := hfull v hv
  have hb := h.base_lt hv
  unfold reorder
  rw [hv]
  simp only [Option.bind_eq_bind, Option.bind_some]
  rw [show (alloc v.cap s).1 = s.next from rfl, reorder_loop (alloc v.cap s).2 v.base s.next m cells v.cap
    (by omega) (by simp only [alloc]; rw [upd_ne _ _ _ _ (by omega)]; exact hc)
    (by simp only [alloc, upd_same]) v.size (by omega) (fun k hk => by
      have := hm k (by omega); omega)]
  simp only [Option.bind_some, alloc, upd_upd, List.replicate_zero]
  have hh' : Holds ((List.range v.size).map (fun k => (cells[m k]?).getD none) ++
      List.replicate (v.cap - v.size) none)
      ((List.range l.length).map fun k => (l[m k]?).getD none) := by
    intro q z hq
    have hq1 : q < l.length := by
      have := (List.getElem?_eq_some_iff.1 hq).1
      simpa using this
    rw [List.getElem?_map, List.getElem?_range hq1] at hq
    simp only [Option.map_some, Option.some.injEq] at hq
    rw [List.getElem?_append_left (by simp; omega), List.getElem?_map,
      List.getElem?_range (by omega)]
    simp only [Option.map_some, Option.some.injEq]
    have h3 := hm q hq1
    have h4 : l[m q]? = some (some z) := by
      rw [List.getElem?_eq_getElem h3] at hq ⊢
      simpa using hq
    rw [hh _ _ h4]
    rfl
  have := inv_renew h (l := (List.range l.length).map fun k => (l[m k]?).getD none)
    (cells := (List.range v.size).map (fun k => (cells[m k]?).getD none) ++
      List.replicate (v.cap - v.size) none) (c := v.cap) (k := s.next + 1 + 1)
    (rest := upd (upd s.heap s.next (some ((List.range v.size).map (fun k => (cells[m k]?).getD none) ++
      List.replicate (v.cap - v.size) none))) (s.next + 1) (some [])) hv
    (by simp; omega) (by simp; omega) hh' (by omega)
    (fun b h1 h2 h3 => by rw [show b = s.next + 1 by omega]; exact upd_same ..)
    (fun b hb => by
      rw [upd_ne _ _ _ _ (by omega), upd_ne _ _ _ _ (by omega)]; exact h.fresh b (by omega))
    (fun b hb => by rw [upd_ne _ _ _ _ (by omega), upd_ne _ _ _ _ (by omega)])
    (by rw [upd_ne _ _ _ _ (by omega), upd_same])
  simp only [List.length_map, List.length_range] at this
  rw [show l.length = v.cap by omega] at this
  rw [show l.length = v.cap by omega]
  exact this

/-- Every handled call inside its domain succeeds and keeps the invariant. -/
theorem step_spec {s : St α} {a a' : Abs α} (h : Inv s a) (op : Op α) (hop : Handled s op)
    (hs : specStep a op = some a') : ∃ s', step s op = some s' ∧ Inv s' a' := by
  cases op with
  | ctor i n =>
    simp only [specStep] at hs
    split at hs
    · rename_i hi; cases hs; exact ctor_spec h hi
    · exact absurd hs (by simp)
  | dtor i =>
    simp only [specStep, Option.map_eq_some_iff] at hs
    obtain ⟨l, hl, rfl⟩ := hs
    obtain ⟨v, hv, _⟩ := h.alive hl
    obtain ⟨s', e1, e2, _⟩ := inv_dtor h hv
    exact ⟨s', e1, e2⟩
  | copyCtor i j =>
    simp only [specStep] at hs
    split at hs
    · rename_i hi
      obtain ⟨l, hl, rfl⟩ := Option.map_eq_some_iff.1 hs
      exact copyCtor_spec h hi hl
    · exact absurd hs (by simp)
  | clone i j =>
    simp only [specStep] at hs
    split at hs
    · rename_i hi
      obtain ⟨l, hl, rfl⟩ := Option.map_eq_some_iff.1 hs
      exact clone_spec h hi hl
    · exact absurd hs (by simp)
  | copyAssign i j =>
    simp only [specStep, Option.bind_eq_some_iff, Option.map_eq_some_iff] at hs
    obtain ⟨l, hl, m, hm, rfl⟩ := hs
    exact copyAssign_spec h hl hm
  | moveCtor i j =>
    simp only [specStep] at hs
    split at hs
    · rename_i hi
      obtain ⟨l, hl, rfl⟩ := Option.map_eq_some_iff.1 hs
      exact moveCtor_spec h hi hl
    · exact absurd hs (by simp)
  | moveAssign i j =>
    simp only [specStep, Option.bind_eq_some_iff, Option.map_eq_some_iff] at hs
    obtain ⟨l, hl, m, hm, rfl⟩ := hs
    exact moveAssign_spec h hl hm
  | swap i j =>
    simp only [specStep, Option.bind_eq_some_iff, Option.map_eq_some_iff] at hs
    obtain ⟨l, hl, m, hm, rfl⟩ := hs
    obtain ⟨v, hv, _⟩ := h.alive hl
    obtain ⟨w, hw, _⟩ := h.alive hm
    refine ⟨_, ?_, inv_swap h hv hw hl hm⟩
    simp [step, swap, hv, hw]
  | resize i n al ch =>
    simp only [specStep] at hs
    split at hs
    · exact absurd hs (by simp)
    · obtain ⟨l, hl, rfl⟩ := Option.map_eq_some_iff.1 hs
      obtain ⟨v, hv, _⟩ := h.alive hl
      obtain ⟨s', _, e1, e2, _⟩ := resize_spec h (n := n) (al := al) (ch := ch) hv hl
      exact ⟨s', e1, e2⟩
  | push i x =>
    obtain ⟨l, hl, rfl⟩ := Option.map_eq_some_iff.1 hs
    exact push_spec h hl
  | pushOwn i k =>
    simp only [specStep, Option.bind_eq_some_iff, Option.map_eq_some_iff] at hs
    obtain ⟨l, hl, x, hx, rfl⟩ := hs
    exact pushOwn_spec h hl hx hop
  | append i j =>
    simp only [specStep, Option.bind_eq_some_iff, Option.map_eq_some_iff] at hs
    obtain ⟨l, hl, m, hm, rfl⟩ := hs
    exact append_spec h hl hm
  | set i k x =>
    simp only [specStep, Option.bind_eq_some_iff] at hs
    obtain ⟨l, hl, hs⟩ := hs
    split at hs
    · rename_i hk
      cases hs
      obtain ⟨v, hv, _⟩ := h.alive hl
      obtain ⟨s', e1, e2⟩ := store_spec h (x := some x) (y := some x) hv hl hk (fun _ h => h)
      refine ⟨s', ?_, e2⟩
      simp only [step, set]
      rw [hv]
      exact e1
    · exact absurd hs (by simp)
  | reorder i m =>
    simp only [specStep, Option.bind_eq_some_iff] at hs
    obtain ⟨l, hl, hs⟩ := hs
    split at hs
    · rename_i hk
      cases hs
      exact reorder_spec h hl hk hop
    · exact absurd hs (by simp)

theorem reach_inv {s : St α} {a : Abs α} (h : Reach s a) : Inv s a := by
  induction h with
  | init => exact inv_init
  | call op s s' a a' _ hop hs he ih =>
    obtain ⟨s'', e1, e2⟩ := step_spec ih op hop hs
    rw [he] at e1
    cases e1
    exact e2


end Verif.Vector
