import Verif.Proof.LevelSetDomain

/-! C99: shrinking and growing the domain of a sparse level set. -/
namespace Verif.LevelSetDomain

open Buckets

variable {K : Type} [Field K] [LinearOrder K]

/-- The mark of a cell is one where a value matters and zero elsewhere; other channels keep their values. -/
theorem mark_exact [IsStrictOrderedRing K] (props : List Prop') (mark : Nat) (background threshold : K) (data : Nat → Nat → Nat → K) (b c : Nat) :
    (markLevelSet props mark background threshold data b c mark = 1 ↔ Active props background threshold (data b c)) ∧
      (markLevelSet props mark background threshold data b c mark = 0 ↔ ¬Active props background threshold (data b c)) ∧
      ∀ ch, ch ≠ mark → markLevelSet props mark background threshold data b c ch = data b c ch := by
  refine ⟨?_, ?_, fun ch h => by unfold markLevelSet; exact if_neg h⟩ <;> rw [← markCell_iff, markLevelSet, if_pos rfl] <;> split_ifs with h <;> simp [h]

/-- Shrinking with at least one block that matters, in every order of the loops: the kept keys are those of the blocks with a cell that matters, in the order they had; a query finds exactly these, and gives a block
with the channels of before and the marks. -/
theorem refit_exact_partial [IsStrictOrderedRing K] (props : List Prop') (blockSize mark : Nat) (background threshold : K) (ls : Ls K) (h : ls.table.WF) (junk : Nat → Nat) {o1 : List Nat}
    (h1 : o1.Perm (List.range ls.table.keys.length)) {b0 c0 : Nat} (hb0 : b0 < ls.table.keys.length) (hc0 : c0 < blockSize) (ha : Active props background threshold (ls.data b0 c0)) :
    ∃ n, ∀ o2 : List Nat, o2.Perm (List.range n) → ∃ ls', refit props blockSize mark background threshold ls junk o1 o2 = some ls' ∧ ls'.table.WF ∧ ls'.table.keys.length = n ∧
      ls'.table.keys.Sublist ls.table.keys ∧
      ∀ k, (k ∈ ls'.table.keys ↔ ∃ b, ls.table.find k = some b ∧ ∃ c < blockSize, Active props background threshold (ls.data b c)) ∧
        (k ∈ ls'.table.keys → ls'.block k = (ls.block k).map fun v c ch => if ch = mark then (if markCell props background threshold (v c) then 1 else 0) else v c ch) := by
  classical
  set data := markLevelSet props mark background threshold ls.data with hdata
  set m := marks blockSize mark data with hm
  have hm01 := marks_le blockSize mark data
  set blocknos := (List.range ls.table.keys.length).filter fun b => m b ≠ 0 with hbn
  have hpres := preserved_eq (m := m) hm01 junk h1
  have hmb : ∀ b, m b ≠ 0 ↔ ∃ c < blockSize, Active props background threshold (ls.data b c) := by
    intro b
    have hx := fun c => (mark_exact props mark background threshold ls.data b c).2.1
    rw [hm]
    unfold marks
    constructor
    · intro hne
      split_ifs at hne with hany
      · obtain ⟨c, hc, hv⟩ := List.any_eq_true.1 hany
        exact ⟨c, List.mem_range.1 hc, by by_contra hn; exact (of_decide_eq_true hv) ((hx c).2 hn)⟩
      · exact absurd rfl hne
    · rintro ⟨c, hc, hv⟩
      rw [if_pos (List.any_eq_true.2 ⟨c, List.mem_range.2 hc, decide_eq_true (p := data b c mark ≠ 0) fun e => (hx c).1 e hv⟩)]
      exact one_ne_zero
  have hmem : ∀ b, b ∈ blocknos ↔ b < ls.table.keys.length ∧ m b ≠ 0 := by intro b; simp [hbn]
  have hb : ∀ b ∈ blocknos, b < ls.table.keys.length := fun b hb => ((hmem b).1 hb).1
  have hne : blocknos ≠ [] := List.ne_nil_of_mem ((hmem b0).2 ⟨hb0, (hmb b0).2 ⟨c0, hc0, ha⟩⟩)
  have hnd : blocknos.Nodup := List.nodup_range.filter _
  have hlen : blocknos.length = Bvtt.offsets m ls.table.keys.length := by
    obtain ⟨l', e, hl, -⟩ := preserved_spec (m := m) hm01 o1 [] ((List.range (Bvtt.offsets m ls.table.keys.length)).map junk) (by intro b hb; exact List.mem_range.1 (h1.mem_iff.1 (by simpa using hb))) (by simp) (by simp)
    rw [preserved, e] at hpres
    rw [hbn, ← Option.some.inj hpres, hl]
    simp
  refine ⟨blocknos.length, fun o2 h2 => ?_⟩
  obtain ⟨hwf, hkeys⟩ := shrinkTable_spec h hnd hb hne h2
  have hgetD : ∀ b, b < ls.table.keys.length → ls.table.keys[b]? = some (ls.table.keys.getD b 0) := by
    intro b hb'
    rw [List.getD_eq_getElem?_getD, List.getElem?_eq_getElem hb']; rfl
  refine ⟨_, refit_of hpres, hwf, ?_, ?_, fun k => ⟨?_, ?_⟩⟩
  · show (shrinkTable ls.table blocknos o2).keys.length = _
    rw [hkeys, List.length_map]
  · show (shrinkTable ls.table blocknos o2).keys.Sublist _
    rw [hkeys]
    have hall : (List.range ls.table.keys.length).map (fun b => ls.table.keys.getD b 0) = ls.table.keys := by
      refine List.ext_getElem? fun i => ?_
      by_cases hi : i < ls.table.keys.length
      · rw [List.getElem?_map, List.getElem?_range hi, hgetD i hi]; rfl
      · rw [List.getElem?_eq_none (by simpa using hi), List.getElem?_eq_none (by omega)]
    conv_rhs => rw [← hall]
    exact List.Sublist.map _ List.filter_sublist
  · show k ∈ (shrinkTable ls.table blocknos o2).keys ↔ _
    rw [hkeys, List.mem_map]
    constructor
    · rintro ⟨b, hb', rfl⟩
      exact ⟨b, (h.2 _ _).2 (hgetD b (hb b hb')), (hmb b).1 ((hmem b).1 hb').2⟩
    · rintro ⟨b, hf, hact⟩
      have e := (h.2 _ _).1 hf
      have hlt := (List.getElem?_eq_some_iff.1 e).1
      refine ⟨b, (hmem b).2 ⟨hlt, (hmb b).2 hact⟩, ?_⟩
      rw [hgetD b hlt] at e
      exact Option.some.inj e
  · intro hk
    obtain ⟨i, hi⟩ := List.getElem?_of_mem hk
    have hf := (hwf.2 k i).2 hi
    have hi' : (blocknos.map fun b => ls.table.keys.getD b 0)[i]? = some k := by rw [← hkeys]; exact hi
    rw [List.getElem?_map] at hi'
    obtain ⟨b, hb1, hb2⟩ := Option.map_eq_some_iff.1 hi'
    have hilt := (List.getElem?_eq_some_iff.1 hb1).1
    have hold : ls.table.find k = some b := (h.2 _ _).2 (by rw [hgetD b (hb b (List.mem_of_getElem? hb1)), hb2])
    show ((shrinkTable ls.table blocknos o2).find k).map _ = ((ls.table.find k).map ls.data).map _
    rw [hf, hold]
    show some _ = some _
    congr 1
    show (if i < Bvtt.offsets m ls.table.keys.length then data (blocknos.getD i 0) else data i) = _
    rw [if_pos (hlen ▸ hilt), List.getD_eq_getElem?_getD, hb1]
    rfl

/-- Shrinking when no block matters: no query finds a block any more, but the count and the active keys are those of before. -/
theorem refit_empty_violated [IsStrictOrderedRing K] (props : List Prop') (blockSize mark : Nat) (background threshold : K) (ls : Ls K) (junk : Nat → Nat) {o1 : List Nat}
    (h1 : o1.Perm (List.range ls.table.keys.length)) (hne : ls.table.keys ≠ []) (ha : ∀ b c, ¬Active props background threshold (ls.data b c)) :
    ∃ ls', refit props blockSize mark background threshold ls junk o1 [] = some ls' ∧ ls'.table.keys = ls.table.keys ∧ (∀ k, ls'.table.find k = none) ∧ ¬ls'.table.WF := by
  set data := markLevelSet props mark background threshold ls.data with hdata
  have hm : ∀ b, marks blockSize mark data b = 0 := by
    intro b
    unfold marks
    rw [if_neg]
    intro hany
    obtain ⟨c, -, hv⟩ := List.any_eq_true.1 hany
    exact (of_decide_eq_true hv) ((mark_exact props mark background threshold ls.data b c).2.1.2 (ha b c))
  have hpres := preserved_eq (marks_le blockSize mark data) junk h1
  have hnil : ((List.range ls.table.keys.length).filter fun b => marks blockSize mark data b ≠ 0) = [] := by
    rw [List.filter_eq_nil_iff]; intro b _; simp [hm b]
  rw [hnil] at hpres
  refine ⟨_, refit_of hpres, ?_, fun k => rfl, ?_⟩
  · show List.take _ _ = _
    simp
  · intro hw
    obtain ⟨k, hk⟩ := List.exists_mem_of_ne_nil _ hne
    obtain ⟨i, hi⟩ := List.getElem?_of_mem hk
    have := (hw.2 k i).2 (by
      show (List.take _ _)[i]? = _
      simpa using hi)
    cases this

omit [LinearOrder K] in
/-- Growing by that many layers, in every order of the loops: the keys are those at most that many blocks away along each axis from a key of before; the keys and blocks of before stay, with their indices, and the
others hold zero in each channel but the distance, which is the background and one cell. -/
theorem extend_exact (side : Int) (sdf : Option Nat) (background dx : K) (ord : Nat → List Nat → List Nat) (hord : ∀ j l, (ord j l).Perm l) (n : Nat) (ls : Ls K) (h : ls.table.WF) :
    let ls' := extend side sdf background dx ord n 0 ls
    ls'.table.WF ∧ (ls.table.keys <+: ls'.table.keys) ∧
      (∀ k', k' ∈ ls'.table.keys ↔ ∃ k ∈ ls.table.keys, ∃ e : Key 3, (∀ a, -(n : Int) ≤ e a ∧ e a ≤ n) ∧ k' = k + fun a => e a * side) ∧
      (∀ k, k ∈ ls.table.keys → ls'.block k = ls.block k) ∧
      ∀ k, k ∈ ls'.table.keys → k ∉ ls.table.keys → ls'.block k = some fun _ ch => if sdf = some ch then background + dx else 0 := by
  have main : ∀ (n base : Nat) (ls : Ls K), ls.table.WF → base ≤ ls.table.keys.length → (∀ k ∈ ls.table.keys.take base, ∀ k', Near side k k' → k' ∈ ls.table.keys) →
      (extend side sdf background dx ord n base ls).table.WF ∧ (ls.table.keys <+: (extend side sdf background dx ord n base ls).table.keys) ∧
      (∀ k', k' ∈ (extend side sdf background dx ord n base ls).table.keys ↔ ∃ k ∈ ls.table.keys, Ball side n k k') ∧
      (∀ b, b < ls.table.keys.length → (extend side sdf background dx ord n base ls).data b = ls.data b) ∧
      ∀ b, ls.table.keys.length ≤ b → b < (extend side sdf background dx ord n base ls).table.keys.length →
        (extend side sdf background dx ord n base ls).data b = fun _ ch => if sdf = some ch then background + dx else 0 := by
    intro n
    induction n with
    | zero =>
      intro base ls h _ _
      refine ⟨h, List.prefix_refl _, fun k' => ?_, fun b _ => rfl, fun b h1 h2 => absurd h2 (Nat.not_lt.2 h1)⟩
      show k' ∈ ls.table.keys ↔ _
      constructor
      · intro hk; exact ⟨k', hk, 0, fun a => by simp, by funext a; simp⟩
      · rintro ⟨k, hk, e, he, rfl⟩
        have : e = 0 := by funext a; have := he a; simp at this; show e a = 0; omega
        subst this
        have hz : (k + fun a => (0 : Key 3) a * side) = k := by funext a; simp
        rw [hz]; exact hk
    | succ n ih =>
      intro base ls h hbase hnear
      set o := ord n (List.range (ls.table.keys.length - base)) with ho
      obtain ⟨hw, hadd⟩ := spawn_spec side base h o
      set t := spawn side base ls.table o with ht
      have hlen := hadd.pre.length_le
      have hmemt : ∀ k', k' ∈ t.keys ↔ ∃ k ∈ ls.table.keys, Near side k k' := by
        intro k'
        rw [hadd.mem]
        constructor
        · rintro (hk | ⟨b, hb, hn⟩)
          · exact ⟨k', hk, 0, fun a => by simp, by funext a; simp⟩
          · have hb' := List.mem_range.1 ((hord _ _).mem_iff.1 hb)
            have hlt : b + base < ls.table.keys.length := by omega
            refine ⟨_, ?_, hn⟩
            rw [List.getD_eq_getElem?_getD, List.getElem?_eq_getElem hlt]
            exact List.getElem_mem hlt
        · rintro ⟨k, hk, hn⟩
          obtain ⟨i, hi⟩ := List.getElem?_of_mem hk
          have hilt := (List.getElem?_eq_some_iff.1 hi).1
          by_cases hib : i < base
          · left
            exact hnear k (List.mem_of_getElem? (i := i) (by rw [List.getElem?_take_of_lt hib]; exact hi)) k' hn
          · right
            refine ⟨i - base, (hord _ _).mem_iff.2 (List.mem_range.2 (by omega)), ?_⟩
            rw [Nat.sub_add_cancel (by omega), List.getD_eq_getElem?_getD, hi]
            exact hn
      obtain ⟨i1, i2, i3, i4, i5⟩ := ih ls.table.keys.length ⟨t, initBlocks sdf background dx ls.table.keys.length t.keys.length ls.data⟩ hw hlen (by
        intro k hk k' hn
        have hk' : k ∈ ls.table.keys := by
          have e : t.keys.take ls.table.keys.length = ls.table.keys := (List.prefix_iff_eq_take.1 hadd.pre).symm
          have hk2 : k ∈ t.keys.take ls.table.keys.length := hk
          rwa [e] at hk2
        exact (hmemt k').2 ⟨k, hk', hn⟩)
      refine ⟨i1, hadd.pre.trans i2, fun k' => (i3 k').trans ?_, fun b hb => (i4 b (lt_of_lt_of_le hb hlen)).trans ?_, fun b hb1 hb2 => ?_⟩
      · constructor
        · rintro ⟨k1, hk1, hball⟩
          obtain ⟨k, hk, hn⟩ := (hmemt k1).1 hk1
          exact ⟨k, hk, ball_succ.2 ⟨k1, hn, hball⟩⟩
        · rintro ⟨k, hk, hball⟩
          obtain ⟨k1, hn, hb⟩ := ball_succ.1 hball
          exact ⟨k1, (hmemt k1).2 ⟨k, hk, hn⟩, hb⟩
      · funext c ch
        exact if_neg fun h => absurd h.1 (Nat.not_le.2 hb)
      · by_cases hbt : b < t.keys.length
        · refine (i4 b hbt).trans ?_
          funext c ch
          exact if_pos ⟨hb1, hbt⟩
        · exact i5 b (Nat.not_lt.1 hbt) hb2
  obtain ⟨m1, m2, m3, m4, m5⟩ := main n 0 ls h (Nat.zero_le _) (by simp)
  refine ⟨m1, m2, m3, fun k hk => ?_, fun k hk hk' => ?_⟩
  · obtain ⟨i, hi⟩ := List.getElem?_of_mem hk
    have hlt := (List.getElem?_eq_some_iff.1 hi).1
    have e1 := (h.2 k i).2 hi
    have e2 := (m1.2 k i).2 (by
      obtain ⟨r, hr⟩ := m2
      rw [← hr, List.getElem?_append_left hlt]; exact hi)
    unfold Ls.block
    rw [e1, e2]
    exact congrArg some (m4 i hlt)
  · obtain ⟨i, hi⟩ := List.getElem?_of_mem hk
    have hlt := (List.getElem?_eq_some_iff.1 hi).1
    have hge : ls.table.keys.length ≤ i := by
      by_contra hlt'
      obtain ⟨r, hr⟩ := m2
      rw [← hr, List.getElem?_append_left (by omega)] at hi
      exact hk' (List.mem_of_getElem? hi)
    unfold Ls.block
    rw [(m1.2 k i).2 hi]
    exact congrArg some (m5 i hge hlt)

/-- Two blocks; the distances of the second are below the background. -/
def sample : Ls ℚ := ⟨⟨[![0, 0, 0], ![8, 0, 0]], fun k => if k = ![0, 0, 0] then some 0 else if k = ![8, 0, 0] then some 1 else none⟩, fun b c _ => if b = 1 ∧ c = 3 then -1 else 5⟩

example : sample.table.WF ∧ 1 < sample.table.keys.length ∧ Active [⟨"sdf", 0, 1⟩, ⟨"mark", 1, 1⟩] 5 0 (sample.data 1 3) := by
  refine ⟨⟨by decide, fun k i => ?_⟩, by decide, ⟨"sdf", 0, 1⟩, by simp, 0, by simp, Or.inl ⟨rfl, by norm_num [sample]⟩⟩
  show (if k = ![0, 0, 0] then some 0 else if k = ![8, 0, 0] then some 1 else none) = some i ↔ [![0, 0, 0], ![8, 0, 0]][i]? = some k
  match i with
  | 0 => by_cases h : k = ![0, 0, 0] <;> by_cases h2 : k = ![8, 0, 0] <;> simp [h, h2, eq_comm]
  | 1 =>
    by_cases h : k = ![0, 0, 0]
    · subst h; simp
    · by_cases h2 : k = ![8, 0, 0] <;> simp [h, h2, eq_comm]
  | i + 2 => by_cases h : k = ![0, 0, 0] <;> by_cases h2 : k = ![8, 0, 0] <;> simp [h, h2]

example : ∀ b c, ¬Active [⟨"sdf", 0, 1⟩, ⟨"v", 1, 3⟩] (2 : ℚ) 0 (({ table := sample.table, data := fun _ _ ch => if ch = 0 then 3 else 0 } : Ls ℚ).data b c) := by
  rintro b c ⟨p, hp, chn, hc, h⟩
  simp only [List.mem_cons, List.not_mem_nil, or_false] at hp
  rcases hp with rfl | rfl
  · simp only [Nat.lt_one_iff] at hc
    subst hc
    rcases h with ⟨_, h⟩ | ⟨h, _⟩
    · norm_num at h
    · exact h rfl
  · rcases h with ⟨h, _⟩ | ⟨_, _, h⟩
    · exact absurd h (by decide)
    · simp at h

end Verif.LevelSetDomain
