import Verif.Model.SmallString
namespace Verif.SmallString

theorem copyLoop_eq (n f : Nat) (p t j pre rest : List Nat) (ht : ∀ c ∈ t, c ≠ 0)
    (hn : pre.length + rest.length = n) (hr : rest ≠ []) (hf : rest.length ≤ f) :
    copyLoop n (p ++ t ++ 0 :: j) f pre.length p.length (pre ++ rest) =
      some (pre ++ t.take (rest.length - 1) ++ rest.drop (min t.length (rest.length - 1)),
        pre.length + min t.length (rest.length - 1)) := by
  induction f generalizing p t pre rest with
  | zero =>
    have := List.length_pos_iff.mpr hr
    omega
  | succ f ih =>
    obtain ⟨x, rest, rfl⟩ := List.exists_cons_of_ne_nil hr
    rw [copyLoop]
    by_cases h1 : pre.length + 1 = n
    · have : rest = [] := by
        apply List.eq_nil_of_length_eq_zero; simp at hn; omega
      subst this
      simp [h1]
    · have hr' : rest ≠ [] := by
        rintro rfl; simp at hn; omega
      have hpos := List.length_pos_iff.mpr hr'
      rw [if_neg h1]
      cases t with
      | nil => simp
      | cons c t =>
        have hc : c ≠ 0 := ht c (by simp)
        have hg : (p ++ c :: t ++ 0 :: j)[p.length]? = some c := by simp
        rw [hg]
        have hw : wr (pre ++ x :: rest) pre.length c = some (pre ++ [c] ++ rest) := by
          simp [wr]
        simp only [Option.bind_eq_bind, Option.bind_some, if_neg hc, hw]
        have := ih (p ++ [c]) t (pre ++ [c]) rest (fun d hd => ht d (by simp [hd]))
          (by simp at hn ⊢; omega) hr' (by simp at hf; omega)
        simp only [List.length_append, List.length_cons, List.length_nil, Nat.zero_add,
          List.append_assoc, List.cons_append, List.nil_append] at this ⊢
        rw [this]
        obtain ⟨y, rest, rfl⟩ := List.exists_cons_of_ne_nil hr'
        simp
        omega

theorem sizedLoop_eq (n f : Nat) (p t pre mid rest : List Nat) (hp : p.length = pre.length)
    (hm : mid.length = n - pre.length) (hpn : pre.length ≤ n) (ht : n - pre.length ≤ t.length)
    (hf : n - pre.length < f) :
    sizedLoop n (p ++ t) f pre.length (pre ++ mid ++ rest) =
      some (pre ++ t.take (n - pre.length) ++ rest) := by
  induction f generalizing p t pre mid with
  | zero => omega
  | succ f ih =>
    rw [sizedLoop]
    by_cases h : pre.length = n
    · have : mid = [] := List.eq_nil_of_length_eq_zero (by omega)
      subst this
      simp [h]
    · rw [if_neg h]
      obtain ⟨c, t, rfl⟩ := List.exists_cons_of_ne_nil (l := t) (by rintro rfl; simp at ht; omega)
      obtain ⟨x, mid, rfl⟩ := List.exists_cons_of_ne_nil (l := mid)
        (by rintro rfl; simp at hm; omega)
      have hg : (p ++ c :: t)[pre.length]? = some c := by simp [← hp]
      have hw : wr (pre ++ x :: mid ++ rest) pre.length c = some (pre ++ [c] ++ mid ++ rest) := by
        simp [wr]
      have := ih (p ++ [c]) t (pre ++ [c]) mid (by simp [hp]) (by simp at hm ⊢; omega)
        (by simp; omega) (by simp at ht ⊢; omega) (by simp; omega)
      simp only [hg, Option.bind_eq_bind, Option.bind_some, hw]
      simp only [List.length_append, List.length_cons, List.length_nil, Nat.zero_add,
          List.append_assoc, List.cons_append, List.nil_append] at this ⊢
      rw [this]
      have e : n - pre.length = (n - (pre.length + 1)) + 1 := by omega
      rw [e]
      simp

theorem sizeLoop_eq (f : Nat) (p t j : List Nat) (ht : ∀ c ∈ t, c ≠ 0) (hf : t.length < f) :
    sizeLoop (p ++ t ++ 0 :: j) f p.length = some (p.length + t.length) := by
  induction f generalizing p t with
  | zero => omega
  | succ f ih =>
    rw [sizeLoop]
    cases t with
    | nil => simp
    | cons c t =>
      have hc : c ≠ 0 := ht c (by simp)
      have hg : (p ++ c :: t ++ 0 :: j)[p.length]? = some c := by simp
      have := ih (p ++ [c]) t (fun d hd => ht d (by simp [hd])) (by simp at hf; omega)
      rw [hg]
      simp only [Option.bind_eq_bind, Option.bind_some, if_neg hc]
      simp only [List.length_append, List.length_cons, List.length_nil, Nat.zero_add,
          List.append_assoc, List.cons_append, List.nil_append] at this ⊢
      rw [this]; congr 1; omega

theorem eqLoop_eq (f : Nat) (p a b j k : List Nat) (ha : ∀ c ∈ a, c ≠ 0) (hb : ∀ c ∈ b, c ≠ 0)
    (hf : a.length < f) :
    eqLoop (p ++ a ++ 0 :: j) (p ++ b ++ 0 :: k) (p.length + a.length) f p.length =
      some (decide (a = b)) := by
  induction f generalizing p a b with
  | zero => omega
  | succ f ih =>
    rw [eqLoop]
    cases a with
    | nil =>
      cases b with
      | nil => simp
      | cons d b =>
        have hd : d ≠ 0 := hb d (by simp)
        simp [hd]
    | cons c a =>
      have hc : c ≠ 0 := ha c (by simp)
      cases b with
      | nil => simp [hc]
      | cons d b =>
        have hd : d ≠ 0 := hb d (by simp)
        by_cases hcd : c = d
        · subst hcd
          have := ih (p ++ [c]) a b (fun d hd => ha d (by simp [hd]))
            (fun d hd => hb d (by simp [hd])) (by simp at hf; omega)
          simp only [List.length_append, List.length_cons, List.length_nil, Nat.zero_add,
            List.append_assoc, List.cons_append, List.nil_append] at this ⊢
          simp [hc]
          have e : p.length + (a.length + 1) = p.length + 1 + a.length := by omega
          rw [e, this]
        · simp [hd, hcd]

end Verif.SmallString
