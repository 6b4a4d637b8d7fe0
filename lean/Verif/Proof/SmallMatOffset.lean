import Verif.Model.SmallMat
import Mathlib.Data.List.Perm.Basic
import Mathlib.Algebra.BigOperators.Group.List.Basic

/-! Helper lemmas for C75: positions of the entries of a tensor. -/
namespace Verif.Mat

/-- The value of a number with digits and bases, the most significant digit first. -/
def radix : List (Nat × Nat) → Nat
  | [] => 0
  | (d, _) :: l => d * (l.map Prod.snd).prod + radix l

theorem radix_lt {l : List (Nat × Nat)} (h : ∀ p ∈ l, p.1 < p.2) : radix l < (l.map Prod.snd).prod := by
  induction l with
  | nil => exact Nat.zero_lt_one
  | cons p l ih =>
    have h1 := ih fun q hq => h q (List.mem_cons_of_mem _ hq)
    have h2 := h p List.mem_cons_self
    simp only [radix, List.map_cons, List.prod_cons]
    have : (p.1 + 1) * (l.map Prod.snd).prod ≤ p.2 * (l.map Prod.snd).prod := Nat.mul_le_mul_right _ h2
    rw [Nat.add_mul] at this
    omega

theorem radix_inj {l l' : List (Nat × Nat)} (hs : l.map Prod.snd = l'.map Prod.snd) (h : ∀ p ∈ l, p.1 < p.2) (h' : ∀ p ∈ l', p.1 < p.2)
    (e : radix l = radix l') : l = l' := by
  induction l generalizing l' with
  | nil => cases l' with
    | nil => rfl
    | cons p l => simp at hs
  | cons p l ih => cases l' with
    | nil => simp at hs
    | cons q l' =>
      simp only [List.map_cons, List.cons.injEq] at hs
      have h1 := radix_lt fun r hr => h r (List.mem_cons_of_mem _ hr)
      have h2 := radix_lt fun r hr => h' r (List.mem_cons_of_mem _ hr)
      simp only [radix] at e
      rw [← hs.2] at h2 e
      have hd : p.1 = q.1 := by
        have e1 : (p.1 * (l.map Prod.snd).prod + radix l) / (l.map Prod.snd).prod = p.1 := by
          rw [Nat.mul_comm, Nat.mul_add_div (by omega), Nat.div_eq_of_lt h1]; omega
        have e2 : (q.1 * (l.map Prod.snd).prod + radix l') / (l.map Prod.snd).prod = q.1 := by
          rw [Nat.mul_comm, Nat.mul_add_div (by omega), Nat.div_eq_of_lt h2]; omega
        rw [← e1, e, e2]
      rw [hd] at e
      rw [ih hs.2 (fun r hr => h r (List.mem_cons_of_mem _ hr)) (fun r hr => h' r (List.mem_cons_of_mem _ hr)) (by omega), Prod.ext hd hs.1]

theorem radix_onto (E : List Nat) {o : Nat} (h : o < E.prod) : ∃ D : List Nat, D.length = E.length ∧ (∀ p ∈ D.zip E, p.1 < p.2) ∧ radix (D.zip E) = o := by
  induction E generalizing o with
  | nil => exact ⟨[], rfl, by simp, by simp at h; simp [radix, h]⟩
  | cons e E ih =>
    rw [List.prod_cons] at h
    have hp : 0 < E.prod := by
      rcases Nat.eq_zero_or_pos E.prod with h0 | h0
      · rw [h0] at h; omega
      · exact h0
    obtain ⟨D, h1, h2, h3⟩ := ih (Nat.mod_lt o hp)
    refine ⟨o / E.prod :: D, by simp [h1], ?_, ?_⟩
    · intro p hp'
      simp only [List.zip_cons_cons, List.mem_cons] at hp'
      rcases hp' with rfl | hp'
      · exact Nat.div_lt_of_lt_mul (by rw [Nat.mul_comm]; exact h)
      · exact h2 p hp'
    · simp only [List.zip_cons_cons, radix, h3]
      rw [List.map_snd_zip (by omega)]
      rw [Nat.mul_comm]; exact Nat.div_add_mod o E.prod

theorem prod_range_getD (E : List Nat) (d : Nat) : ((List.range E.length).map fun l => E.getD l d).prod = E.prod := by
  induction E with
  | nil => rfl
  | cons e E ih =>
    rw [List.length_cons, List.range_succ_eq_map, List.map_cons, List.prod_cons, List.prod_cons, List.map_map]
    rw [← ih]; rfl

theorem suffix_prod (E : List Nat) (k d : Nat) :
    ((List.range E.length).map fun l => if l > k then E.getD l d else 1).prod = (E.drop (k + 1)).prod := by
  induction E generalizing k with
  | nil => simp
  | cons e E ih =>
    rw [List.length_cons, List.range_succ_eq_map, List.map_cons, List.prod_cons, List.map_map, if_neg (Nat.not_lt_zero k), Nat.one_mul,
      List.drop_succ_cons]
    cases k with
    | zero =>
      rw [List.drop_zero, ← prod_range_getD E d]
      congr 1
    | succ k =>
      rw [← ih k]
      congr 1
      apply List.map_congr_left
      intro l _
      show (if l + 1 > k + 1 then E.getD l d else 1) = _
      simp only [gt_iff_lt, Nat.add_lt_add_iff_right]

theorem sum_radix (L : List (Nat × Nat)) :
    ((List.range L.length).map fun k => (L.getD k (0, 0)).1 * ((L.map Prod.snd).drop (k + 1)).prod).sum = radix L := by
  induction L with
  | nil => rfl
  | cons p L ih =>
    rw [List.length_cons, List.range_succ_eq_map, List.map_cons, List.sum_cons, List.map_map]
    show p.1 * (((p :: L).map Prod.snd).drop 1).prod + _ = p.1 * _ + radix L
    rw [← ih]; rfl

/-- The position as a number whose digits are the indices in storage order. -/
theorem offset_radix {ns orders args : List Nat} (ho : orders.Perm (List.range ns.length)) (hl : args.length = ns.length) :
    offset ns orders args = radix (orders.map fun i => (args.getD i 0, ns.getD i 0)) := by
  have hlen : orders.length = ns.length := by rw [ho.length_eq, List.length_range]
  have hnd : orders.Nodup := ho.nodup_iff.2 List.nodup_range
  have e : offset ns orders args = (orders.map fun j => args.getD j 0 * lookupBase ns orders j).sum := by
    rw [offset, hl]; exact ((ho.map _).sum_eq).symm
  rw [e, ← sum_radix]
  have e2 : orders.map (fun j => args.getD j 0 * lookupBase ns orders j)
      = (List.range (orders.map fun i => (args.getD i 0, ns.getD i 0)).length).map fun k =>
        ((orders.map fun i => (args.getD i 0, ns.getD i 0)).getD k (0, 0)).1
          * (((orders.map fun i => (args.getD i 0, ns.getD i 0)).map Prod.snd).drop (k + 1)).prod := by
    apply List.ext_getElem
    · simp
    · intro k h1 h2
      have hk : k < orders.length := by simpa using h1
      simp only [List.getElem_map, List.getElem_range, List.map_map]
      rw [List.getD_eq_getElem?_getD (l := orders.map _), List.getElem?_map, List.getElem?_eq_getElem hk]
      simp only [Option.map_some, Option.getD_some]
      congr 1
      rw [lookupBase, hnd.idxOf_getElem k hk, storageBase]
      have := suffix_prod (orders.map fun i => ns.getD i 0) k 0
      rw [List.length_map] at this
      rw [show (Prod.snd ∘ fun i => (args.getD i 0, ns.getD i 0)) = fun i => ns.getD i 0 from rfl, ← this]
      congr 1
      apply List.map_congr_left
      intro l hl
      have hl' : l < orders.length := List.mem_range.1 hl
      rw [List.getD_eq_getElem?_getD (l := orders.map _), List.getElem?_map, List.getD_eq_getElem?_getD (l := orders), List.getElem?_eq_getElem hl']
      rfl
  rw [e2]

end Verif.Mat
