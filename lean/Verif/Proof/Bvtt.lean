import Verif.Spec.Bvtt
import Mathlib.Data.List.GetD
import Mathlib.Data.List.Perm.Basic
import Mathlib.Algebra.BigOperators.Group.List.Basic
import Mathlib.Tactic.Ring

/-! Counting and scattering. -/
namespace Verif.Bvtt

theorem node_eq {f : Front} (h : WF f) {i : Nat} (hi : i < f.prims.length) : f.node i = some (f.entry i).2 ∧ f.prim i = some (f.entry i).1 := by
  have h1 := h.1
  have hc : i < f.cap := by simp only [Front.cap]; omega
  have hi' : i < f.nodes.length := by omega
  simp only [Front.node, Front.prim, if_pos hc, Front.entry]
  rw [List.getElem?_eq_getElem hi', List.getElem?_eq_getElem hi, List.getD_eq_getElem _ _ hi, List.getD_eq_getElem _ _ hi']
  exact ⟨rfl, rfl⟩

/-- How many of the list are at a node. -/
def num (f : Front) (l : List Nat) (k : Nat) : Nat := (l.filter fun i => (f.entry i).2 == k).length

theorem countNodes_eq {f : Front} (h : WF f) : ∀ (l : List Nat) (c : Nat → Nat), (∀ i ∈ l, i < f.prims.length ∧ (f.entry i).2 < f.numNodes) →
    countNodes f l c = some fun k => c k + num f l k := by
  intro l
  induction l with
  | nil => intro c _; simp [countNodes, num]
  | cons i l ih =>
    intro c hl
    obtain ⟨h1, h2⟩ := hl i (by simp)
    rw [countNodes, (node_eq h h1).1]
    simp only [Option.bind_some, if_pos h2]
    rw [ih _ fun j hj => hl j (by simp [hj])]
    congr 1
    funext k
    simp only [upd, num, List.filter_cons]
    by_cases hk : k = (f.entry i).2
    · subst hk; simp; omega
    · have : ((f.entry i).2 == k) = false := by simp; exact fun e => hk e.symm
      simp [hk, this]

theorem offsets_succ (c : Nat → Nat) (k : Nat) : offsets c (k + 1) = offsets c k + c k := by
  simp [offsets, List.range_succ]

theorem offsets_le (c : Nat → Nat) {k k' : Nat} (h : k < k') : offsets c k + c k ≤ offsets c k' := by
  induction k' with
  | zero => omega
  | succ m ih =>
    rw [offsets_succ]
    rcases Nat.lt_or_eq_of_le (Nat.lt_succ_iff.1 h) with h' | h'
    · have := ih h'; omega
    · subst h'; omega

theorem offsets_total (f : Front) (l : List Nat) (N : Nat) (hl : ∀ i ∈ l, (f.entry i).2 < N) : offsets (num f l) N = l.length := by
  have key : ∀ M, offsets (num f l) M = (l.filter fun i => decide ((f.entry i).2 < M)).length := by
    intro M
    induction M with
    | zero => simp [offsets]
    | succ M ih =>
      rw [offsets_succ, ih]
      clear ih hl
      induction l with
      | nil => simp [num]
      | cons i l ih =>
        simp only [num, List.filter_cons] at ih ⊢
        rcases Nat.lt_trichotomy (f.entry i).2 M with h | h | h
        · have e1 : decide ((f.entry i).2 < M) = true := by simpa using h
          have e2 : ((f.entry i).2 == M) = false := by simp; omega
          have e3 : decide ((f.entry i).2 < M + 1) = true := by simp; omega
          simp only [e1, e2, e3, if_true, List.length_cons, Bool.false_eq_true, if_false]
          omega
        · have e1 : decide ((f.entry i).2 < M) = false := by simp; omega
          have e2 : ((f.entry i).2 == M) = true := by simpa using h
          have e3 : decide ((f.entry i).2 < M + 1) = true := by simp; omega
          simp only [e1, e2, e3, if_true, List.length_cons, Bool.false_eq_true, if_false]
          omega
        · have e1 : decide ((f.entry i).2 < M) = false := by simp; omega
          have e2 : ((f.entry i).2 == M) = false := by simp; omega
          have e3 : decide ((f.entry i).2 < M + 1) = false := by simp; omega
          simp only [e1, e2, e3, Bool.false_eq_true, if_false]
          omega
  rw [key, List.filter_eq_self.2]
  intro i hi
  simpa using hl i hi

/-- What is in the arrays after some iterations. -/
structure Placed (f : Front) (off : Nat → Nat) (done : List Nat) (ps ns : List Nat) : Prop where
  at_ : ∀ k j i, (done.filter fun i => (f.entry i).2 == k)[j]? = some i → ps[off k + j]? = some (f.entry i).1 ∧ ns[off k + j]? = some k

theorem scatter_spec {f : Front} (h : WF f) {all : List Nat} (hall : ∀ i ∈ all, i < f.prims.length ∧ (f.entry i).2 < f.numNodes) (hlen : all.length ≤ f.prims.length) :
    ∀ (is done : List Nat) (ps ns : List Nat), done ++ is = all → ps.length = f.prims.length → ns.length = f.prims.length →
      Placed f (offsets (num f all)) done ps ns →
        ∃ ps' ns', scatter f (offsets (num f all)) is (num f done) ps ns = some (ps', ns') ∧ ps'.length = f.prims.length ∧ ns'.length = f.prims.length ∧
          Placed f (offsets (num f all)) all ps' ns' := by
  intro is
  induction is with
  | nil =>
    intro done ps ns he h1 h2 hp
    rw [List.append_nil] at he
    subst he
    exact ⟨ps, ns, rfl, h1, h2, hp⟩
  | cons i is ih =>
    intro done ps ns he h1 h2 hp
    have hi : i ∈ all := by rw [← he]; simp
    obtain ⟨b1, b2⟩ := hall i hi
    obtain ⟨e1, e2⟩ := node_eq h b1
    -- the number of those before, and the place
    have hnum : ∀ k, num f all k = num f done k + num f (i :: is) k := by
      intro k; rw [← he]; simp [num]
    have hlt : num f done (f.entry i).2 < num f all (f.entry i).2 := by
      rw [hnum]; simp [num]
    have htot : offsets (num f all) f.numNodes = all.length := offsets_total f all _ fun j hj => (hall j hj).2
    have hloc : offsets (num f all) (f.entry i).2 + num f done (f.entry i).2 < f.prims.length := by
      have := offsets_le (num f all) b2
      omega
    rw [scatter, e1, e2]
    simp only [Option.bind_some, if_pos b2]
    rw [if_pos ⟨by omega, by omega⟩]
    have hupd : upd (num f done) (f.entry i).2 (num f done (f.entry i).2 + 1) = num f (done ++ [i]) := by
      funext k
      simp only [upd, num, List.filter_append, List.length_append]
      by_cases hk : k = (f.entry i).2
      · subst hk; simp
      · have : ((f.entry i).2 == k) = false := by simp; exact fun e => hk e.symm
        simp [hk, this]
    rw [hupd]
    refine ih (done ++ [i]) _ _ (by rw [← he]; simp) (by simpa using h1) (by simpa using h2) ⟨fun k j m hm => ?_⟩
    rw [List.filter_append] at hm
    -- the positions of other pairs are different
    by_cases hj : j < num f done k
    · rw [List.getElem?_append_left hj] at hm
      obtain ⟨c1, c2⟩ := hp.at_ k j m hm
      have hne : offsets (num f all) (f.entry i).2 + num f done (f.entry i).2 ≠ offsets (num f all) k + j := by
        have hj' : j < num f all k := by rw [hnum]; omega
        rcases Nat.lt_trichotomy (f.entry i).2 k with hlt' | heq | hgt
        · have := offsets_le (num f all) hlt'; omega
        · rw [heq] at hlt ⊢; omega
        · have := offsets_le (num f all) hgt; omega
      rw [List.getElem?_set_ne hne, List.getElem?_set_ne hne]
      exact ⟨c1, c2⟩
    · rw [List.getElem?_append_right (by simpa [num] using hj)] at hm
      have hk : (f.entry i).2 = k := by
        by_contra hc
        have : ((f.entry i).2 == k) = false := by simpa using hc
        simp [this] at hm
      subst hk
      simp only [beq_self_eq_true, List.filter_cons_of_pos, List.filter_nil] at hm
      have hz : j - (List.filter (fun i_1 => (f.entry i_1).2 == (f.entry i).2) done).length = 0 := by
        by_contra hc
        rw [List.getElem?_eq_none (by simp; omega)] at hm
        simp at hm
      rw [hz] at hm
      have hm : i = m := by simpa using hm
      subst hm
      have hjn : j = num f done (f.entry i).2 := by simp only [num] at hj ⊢; omega
      subst hjn
      rw [List.getElem?_set_self (by omega), List.getElem?_set_self (by omega)]
      exact ⟨rfl, rfl⟩

theorem take_flat {α : Type} (L : Nat → List α) (out : List α) (N : Nat)
    (h : ∀ k < N, ∀ j x, (L k)[j]? = some x → out[offsets (fun k => (L k).length) k + j]? = some x) :
    out.take (offsets (fun k => (L k).length) N) = (List.range N).flatMap L := by
  induction N with
  | zero => simp [offsets]
  | succ N ih =>
    rw [List.range_succ, List.flatMap_append, ← ih fun k hk => h k (by omega), offsets_succ, List.take_add]
    congr 1
    simp only [List.flatMap_cons, List.flatMap_nil, List.append_nil]
    refine List.ext_getElem? fun j => ?_
    by_cases hj : j < (L N).length
    · have := h N (by omega) j _ (List.getElem?_eq_getElem hj)
      rw [List.getElem?_eq_getElem hj, List.getElem?_take_of_lt hj, List.getElem?_drop]
      exact this
    · have hj' : (L N).length ≤ j := by omega
      rw [List.getElem?_eq_none hj', List.getElem?_eq_none ((List.length_take_le _ _).trans hj')]

theorem copyCells_length (cells : List Nat) (size : Nat) (junk : Nat → Nat) : (copyCells cells size junk).length = cells.length := by simp [copyCells]

/-! ### Pushing -/

theorem pushAll_spec : ∀ (l : List (Nat × Nat)) (f : Front), WF f → (pushAll f l).cnt = f.cnt + l.length ∧ (pushAll f l).prims.length = f.prims.length ∧ WF (pushAll f l) ∧
    (pushAll f l).offsets = f.offsets ∧ (pushAll f l).size = f.size ∧
    ∀ i < f.prims.length, (pushAll f l).entry i = if f.cnt ≤ i ∧ i < f.cnt + l.length then l.getD (i - f.cnt) (0, 0) else f.entry i := by
  intro l
  induction l with
  | nil => intro f h; refine ⟨rfl, rfl, h, rfl, rfl, fun i _ => ?_⟩; rw [if_neg (by simp only [List.length_nil]; omega)]; rfl
  | cons e l ih =>
    intro f h
    have hlen := h.1
    have hw : WF (push f e.1 e.2) ∧ (push f e.1 e.2).cnt = f.cnt + 1 ∧ (push f e.1 e.2).prims.length = f.prims.length ∧ (push f e.1 e.2).offsets = f.offsets ∧ (push f e.1 e.2).size = f.size ∧
        ∀ i < f.prims.length, (push f e.1 e.2).entry i = if i = f.cnt then e else f.entry i := by
      by_cases hc : f.cnt < min f.prims.length f.nodes.length
      · have hpu : push f e.1 e.2 = { f with cnt := f.cnt + 1, prims := f.prims.set f.cnt e.1, nodes := f.nodes.set f.cnt e.2 } := by
          exact if_pos hc
        rw [hpu]
        refine ⟨⟨by simpa using hlen, by simpa using h.2⟩, rfl, by simp, rfl, rfl, fun i hi => ?_⟩
        simp only [Front.entry, List.getD_eq_getElem?_getD]
        by_cases hic : i = f.cnt
        · subst hic
          rw [List.getElem?_set_self (by omega), List.getElem?_set_self (by omega)]
          simp
        · rw [List.getElem?_set_ne (Ne.symm hic), List.getElem?_set_ne (Ne.symm hic), if_neg hic]
      · have hpu : push f e.1 e.2 = { f with cnt := f.cnt + 1 } := by
          exact if_neg hc
        rw [hpu]
        refine ⟨h, rfl, rfl, rfl, rfl, fun i hi => ?_⟩
        rw [if_neg (by omega)]
        rfl
    obtain ⟨w1, w2, w3, w4, w5, w6⟩ := hw
    have hp : pushAll f (e :: l) = pushAll (push f e.1 e.2) l := rfl
    obtain ⟨i1, i2, i3, i4, i5, i6⟩ := ih _ w1
    rw [hp]
    refine ⟨by rw [i1, w2, List.length_cons]; omega, by rw [i2, w3], i3, by rw [i4, w4], by rw [i5, w5], fun i hi => ?_⟩
    rw [i6 i (by omega), w6 i hi, w2]
    simp only [List.length_cons]
    by_cases hic : i = f.cnt
    · subst hic
      rw [if_neg (by omega), if_pos rfl, if_pos (by omega), Nat.sub_self]
      rfl
    · by_cases hr : f.cnt + 1 ≤ i ∧ i < f.cnt + 1 + l.length
      · rw [if_pos hr, if_pos (by omega)]
        have : i - f.cnt = (i - (f.cnt + 1)) + 1 := by omega
        rw [this, List.getD_cons_succ]
      · rw [if_neg hr, if_neg hic, if_neg (by omega)]

theorem grow_spec (cells : List Nat) {size newSize : Nat} (junk : Nat → Nat) (hs : size ≤ cells.length) : newSize ≤ (grow cells size newSize junk).length ∧
    cells.length ≤ (grow cells size newSize junk).length ∧ ∀ i < size, (grow cells size newSize junk).getD i 0 = cells.getD i 0 := by
  simp only [grow]
  split_ifs with h1 h2
  · refine ⟨by simp, by simp; omega, fun i hi => ?_⟩
    rw [List.getD_eq_getElem _ _ (by simp; omega)]
    simp [hi]
  · refine ⟨by simp; omega, by simp, fun i hi => ?_⟩
    rw [List.getD_eq_getElem _ _ (by simp; omega)]
    simp [hi]
  · exact ⟨by omega, le_refl _, fun _ _ => rfl⟩

theorem grow_length (a b : List Nat) (size newSize : Nat) (junk : Nat → Nat) (h : a.length = b.length) : (grow a size newSize junk).length = (grow b size newSize junk).length := by
  simp only [grow, h]
  split_ifs <;> simp [h]

end Verif.Bvtt
