import Verif.Model.SpatialHash
import Verif.Proof.BhtRetry
import Verif.Proof.SparseBuild
import Mathlib.Data.List.OfFn
/-! Helper lemmas for the spatial hash (C52). -/
namespace Verif.SpatialHash
open Verif.Phase

/-! ## The table -/

/-- What holds between two kernels of the loop; `cs` are the cells of all primitives. -/
structure TInv (p : Params) (cs : List Key) (tb : Table) : Prop where
  B : tb.cfg.B = 16
  nb : tb.cfg.nb ≠ 0
  hole : tb.cfg.hole = p.hole
  retry : ∃ s1 ind, Bht.Retry tb.cfg (task tb.n0 tb.act tb.ks) tb.n0 tb.act ind tb.ks.length s1 tb.tab
  fin : Bht.Finished tb.tab (tb.n0 + tb.ks.length)
  old : ∀ i < tb.n0, tb.act i ∈ cs
  inj : ∀ i < tb.n0, ∀ j < tb.n0, tb.act i = tb.act j → i = j
  new : ∀ k ∈ tb.ks, k ∈ cs

theorem mixed (n0 : Nat) (act : Nat → Key) (ks : List Key) : Bht.Mixed (task n0 act ks) n0 act where
  old t ht := by simp [task, ht]
  new t ht := by simp [task, Nat.not_lt.2 ht]

theorem task_key {n0 : Nat} {act : Nat → Key} {ks : List Key} {t : Nat} (h1 : n0 ≤ t) (h2 : t < n0 + ks.length) :
    (task n0 act ks t).key ∈ ks := by
  have : t - n0 < ks.length := by omega
  simp only [task, Nat.not_lt.2 h1, if_false]
  rw [List.getD_eq_getElem?_getD, List.getElem?_eq_getElem this]
  exact List.getElem_mem _

theorem key_task {n0 : Nat} {act : Nat → Key} {ks : List Key} {k : Key} (h : k ∈ ks) :
    ∃ t, n0 ≤ t ∧ t < n0 + ks.length ∧ (task n0 act ks t).key = k := by
  obtain ⟨i, hi, e⟩ := List.getElem_of_mem h
  refine ⟨n0 + i, by omega, by omega, ?_⟩
  simp only [task, show ¬ n0 + i < n0 by omega, if_false, Nat.add_sub_cancel_left]
  rw [List.getD_eq_getElem?_getD, List.getElem?_eq_getElem hi]
  exact e

theorem task_append {n0 : Nat} {act : Nat → Key} {ks cs : List Key} {t : Nat} (h : t < n0 + ks.length) :
    task n0 act ks t = task n0 act (ks ++ cs) t := by
  unfold task
  split
  · rfl
  · rw [List.getD_eq_getElem?_getD, List.getD_eq_getElem?_getD, List.getElem?_append_left (by omega)]

theorem ran_congr {K : Type} [DecidableEq K] {c : Bht.Cfg K} {t1 t2 : Nat → Bht.Task K} {s0 s : Bht.St K} {N : Nat} (h : ∀ t < N, t1 t = t2 t)
    (hr : Bht.Ran c t1 s0 N s) : Bht.Ran c t2 s0 N s := by
  obtain ⟨sched, h1, h2⟩ := hr
  exact ⟨sched, h1, by rw [← Bht.run_congr sched fun x hx => h x.1 (h1 x hx)]; exact h2⟩

/-- The calls so far, seen as the beginning of more calls. -/
theorem retry_append {c : Bht.Cfg Key} {n0 : Nat} {act : Nat → Key} {ind : Nat → Nat} {ks cs : List Key} {s1 s : Bht.St Key}
    (h : Bht.Retry c (task n0 act ks) n0 act ind ks.length s1 s) : Bht.Retry c (task n0 act (ks ++ cs)) n0 act ind (ks ++ cs).length s1 s := by
  obtain ⟨sched, h1, h2⟩ := h.second
  refine ⟨ran_congr (fun t ht => task_append (by omega)) h.first, h.done, sched, fun x hx => ?_, ?_⟩
  · have := h1 x hx
    rw [List.length_append]; omega
  · rw [← Bht.run_congr sched fun x hx => task_append (h1 x hx)]
    exact h2

theorem retry_run {K : Type} [DecidableEq K] {c : Bht.Cfg K} {task : Nat → Bht.Task K} {n0 N : Nat} {act : Nat → K} {ind : Nat → Nat} {s1 s s' : Bht.St K}
    (h : Bht.Retry c task n0 act ind N s1 s) {sched : List (Nat × Bool)} (hx : ∀ x ∈ sched, x.1 < n0 + N) (hr : Bht.run c task s sched = some s') :
    Bht.Retry c task n0 act ind N s1 s' := by
  obtain ⟨sched', h1, h2⟩ := h.second
  refine ⟨h.first, h.done, sched' ++ sched, fun x hx' => ?_, ?_⟩
  · rcases List.mem_append.1 hx' with e | e
    · exact h1 x e
    · exact hx x e
  · rw [Bht.run_append, h2]
    exact hr

theorem TInv.inserts {p : Params} {cs : List Key} {tb : Table} {s : Bht.St Key} (h : TInv p cs tb) (hi : Inserts tb cs (some s)) :
    TInv p cs (tb.grow cs s) := by
  obtain ⟨s1, ind, hr⟩ := h.retry
  obtain ⟨sched, h1, h2, h3⟩ := hi
  refine ⟨h.B, h.nb, h.hole, ⟨s1, ind, retry_run (retry_append hr) (fun x hx => (h1 x hx).2) h2⟩, ?_, h.old, h.inj, ?_⟩
  · intro t ht
    rcases Nat.lt_or_ge t (tb.n0 + tb.ks.length) with h4 | h4
    · show Bht.result s t ≠ none
      rw [Bht.bht_result_stable sched h2 t (h.fin t h4)]
      exact h.fin t h4
    · exact h3 s rfl t h4 ht
  · intro k hk
    rcases List.mem_append.1 hk with e | e
    · exact h.new k e
    · exact e

variable {p : Params} {cs : List Key} (hk : ∀ k ∈ cs, k ≠ p.hole)
include hk

theorem TInv.keys {tb : Table} (h : TInv p cs tb) : (∀ t < tb.n0 + tb.ks.length, (task tb.n0 tb.act tb.ks t).key ≠ tb.cfg.hole) ∧
    ∀ i < tb.n0, tb.act i ≠ tb.cfg.hole := by
  constructor
  · intro t ht
    rw [h.hole]
    rcases Nat.lt_or_ge t tb.n0 with h1 | h1
    · have : (task tb.n0 tb.act tb.ks t).key = tb.act t := by simp [task, h1, Bht.resizeTask]
      rw [this]; exact hk _ (h.old t h1)
    · exact hk _ (h.new _ (task_key h1 ht))
  · intro i hi
    rw [h.hole]; exact hk _ (h.old i hi)

theorem TInv.resized {tb tb' : Table} {n : Nat} (h : TInv p cs tb) (hn : (p.cfg n).nb ≠ 0) (hr : Resized p n tb (some tb')) : TInv p cs tb' := by
  obtain ⟨s1, ind, hre⟩ := h.retry
  obtain ⟨l1, l2, l3, l4⟩ := hre.listed (by rw [h.B]; decide) h.nb (mixed _ _ _) (h.keys hk).2 h.inj h.fin
  have mem : ∀ i < tb.tab.cnt, tb.tab.active i ∈ cs := by
    intro i hi
    rcases Nat.lt_or_ge i tb.n0 with h1 | h1
    · rw [l2 i h1]; exact h.old i h1
    · obtain ⟨_, t, h2, h3, e⟩ := l3 i h1 hi
      rw [e]; exact h.new _ (task_key h2 h3)
  generalize e : some tb' = o at hr
  cases hr with
  | keep _ => cases e; exact h
  | run act indices sched r h1 h2 h3 h4 h5 =>
    cases r with
    | none => cases e
    | some s =>
      cases e
      have hf := h5 s rfl
      refine ⟨rfl, hn, rfl, ⟨s, indices, ⟨⟨sched, h3, h4⟩, hf, [], by simp, rfl⟩⟩, hf, ?_, ?_, by simp⟩
      · intro i hi
        show act i ∈ cs
        rw [h2 i hi]; exact mem i hi
      · intro i hi j hj e
        change act i = act j at e
        rw [h2 i hi, h2 j hj] at e
        exact l4 i hi j hj e

/-- What `query` finds in the table that the loop leaves. -/
theorem TInv.query {tb : Table} (h : TInv p cs tb) (hall : ∀ k ∈ cs, k ∈ tb.ks) (hs : tb.tab.success = true) :
    (∀ k ∈ cs, ∃ i < tb.tab.cnt, Bht.query tb.cfg tb.tab k = some i) ∧
    (∀ k i, k ≠ p.hole → Bht.query tb.cfg tb.tab k = some i → i < tb.tab.cnt ∧ k ∈ cs) ∧
    ∀ k k' i, k ≠ p.hole → k' ≠ p.hole → Bht.query tb.cfg tb.tab k = some i → Bht.query tb.cfg tb.tab k' = some i → k = k' := by
  obtain ⟨s1, ind, hre⟩ := h.retry
  have hB : 2 ≤ tb.cfg.B := by rw [h.B]; decide
  have hok : ∀ t < tb.n0 + tb.ks.length, Bht.result tb.tab t ≠ some .failure := by
    intro t ht hf
    have := (Bht.bht_success_flag h.nb hre.ran).2 ⟨t, ht, hf⟩
    rw [hs] at this
    cases this
  obtain ⟨q1, q2⟩ := hre.query hB (mixed _ _ _) (h.keys hk).1 h.inj h.fin hok
  obtain ⟨l1, l2, l3, l4⟩ := hre.listed hB h.nb (mixed _ _ _) (h.keys hk).2 h.inj h.fin
  rw [h.hole] at q2
  refine ⟨fun k hc => ?_, fun k i hh e => ?_, fun k k' i h1 h2 e1 e2 => ?_⟩
  · obtain ⟨t, t1, t2, e⟩ := key_task (n0 := tb.n0) (act := tb.act) (hall k hc)
    obtain ⟨i, hi, e'⟩ := q1 t t2
    exact ⟨i, hi, (q2 k (hk k hc) i).2 ⟨hi, e'.trans e⟩⟩
  · obtain ⟨hi, rfl⟩ := (q2 k hh i).1 e
    refine ⟨hi, ?_⟩
    rcases Nat.lt_or_ge i tb.n0 with h1 | h1
    · rw [l2 i h1]; exact h.old i h1
    · obtain ⟨_, t, t1, t2, e⟩ := l3 i h1 hi
      rw [e]; exact h.new _ (task_key t1 t2)
  · exact ((q2 k h1 i).1 e1).2.symm.trans ((q2 k' h2 i).1 e2).2

/-- The loop, if it ends well. -/
theorem filled_ok {a n : Nat} {tb : Table} {r : Outcome Table} (hp : ∀ n, n ≤ p.next2pow n) (hn : n ≠ 0) (h : Filled p cs a n tb r) (hi : TInv p cs tb) :
    ∀ tb', r = .ok tb' → TInv p cs tb' ∧ (∀ k ∈ cs, k ∈ tb'.ks) ∧ tb'.tab.success = true := by
  have nbp : ∀ n, n ≠ 0 → (p.cfg n).nb ≠ 0 := by
    intro n hn
    have := Bht.bht_table_size (B := 16) (hp n) hn (by decide)
    obtain ⟨⟨q, e⟩, h2⟩ := this
    simp only [Params.cfg, e]
    omega
  induction h with
  | ok h1 h2 =>
    intro tb' e
    cases e
    exact ⟨hi.inserts h1, fun k hk => List.mem_append_right _ hk, h2⟩
  | retry h1 _ _ h4 _ ih => exact ih (by omega) ((hi.inserts h1).resized hk (nbp _ (by omega)) h4)
  | _ => intro tb' e; cases e

/-- The loop does not leave the arrays if the tables after the first have room for all cells. -/
theorem filled_safe {D : List Key} (hD : ∀ k ∈ cs, k ∈ D) {a n : Nat} {tb : Table} {r : Outcome Table} (hp : ∀ n, n ≤ p.next2pow n) (hn : n ≠ 0)
    (hl : D.length ≤ 8 * n) (h : Filled p cs a n tb r) (hi : TInv p cs tb) (h0 : tb.n0 = 0 ∨ D.length ≤ tb.cfg.size) : r ≠ .bad := by
  have size : ∀ n, n ≠ 0 → (p.cfg n).nb ≠ 0 ∧ 2 * n < (p.cfg n).size := by
    intro n hn
    obtain ⟨⟨q, e⟩, h2⟩ := Bht.bht_table_size (B := 16) (hp n) hn (by decide)
    simp only [Params.cfg, Bht.Cfg.size, e]
    omega
  have ins : ∀ {tb : Table}, TInv p cs tb → tb.n0 = 0 ∨ D.length ≤ tb.cfg.size → ¬ Inserts tb cs none := by
    intro tb hi h0 ⟨sched, h1, h2, _⟩
    obtain ⟨s1, ind, hre⟩ := hi.retry
    have hB : 2 ≤ tb.cfg.B := by rw [hi.B]; decide
    have hre' := retry_append (cs := cs) hre
    rcases h0 with h0 | h0
    · rw [h0] at hre' h1 h2
      exact Bht.Retry.safe_first hB (mixed _ _ _) sched tb.tab (fun x hx => (h1 x hx).2) hre' h2
    · refine Bht.Retry.safe hB hi.nb (mixed _ _ _) (hi.keys hk).2 hi.inj (fun i h => hD _ (hi.old i h)) ?_ h0 sched tb.tab (fun x hx => (h1 x hx).2) hre' h2
      intro t t1 t2
      rcases List.mem_append.1 (task_key t1 t2) with e | e
      · exact hD _ (hi.new _ e)
      · exact hD _ e
  induction h with
  | insertBad h1 => exact absurd h1 (ins hi h0)
  | ok => intro e; cases e
  | throws => intro e; cases e
  | resizeBad h1 _ _ h4 =>
    exfalso
    generalize e : none = o at h4
    cases h4 with
    | keep _ => cases e
    | run act indices sched r _ _ h3 h4 _ =>
      cases r with
      | some s => cases e
      | none =>
        have hc : ∀ x ∈ sched, task _ act [] x.1 = Bht.resizeTask act x.1 := fun x hx => if_pos (h3 x hx)
        rw [Bht.run_congr sched hc] at h4
        obtain ⟨s, e, _⟩ := Bht.bht_resize_safe (c := p.cfg _) (indices := indices) (show 2 ≤ 16 by decide) act _ sched
        rw [h4] at e
        cases e
  | @retry a n tb tb' s r h1 _ _ h4 _ ih =>
    have hi' := hi.inserts h1
    refine ih (by omega) (by omega) (hi'.resized hk (size _ (by omega)).1 h4) ?_
    generalize e : some tb' = o at h4
    cases h4 with
    | keep _ => cases e; exact h0
    | run act indices sched r _ _ _ _ _ =>
      cases r with
      | none => cases e
      | some s =>
        cases e
        refine .inr ?_
        have := (size (n * 4) (by omega)).2
        simp only
        omega

omit hk in
/-- A new table. -/
theorem tinv_new {n : Nat} (hn : (p.cfg n).nb ≠ 0) (act : Nat → Key) (ind : Nat → Nat) :
    TInv p cs ⟨p.cfg n, 0, act, [], (p.cfg n).empty 0 act ind⟩ :=
  ⟨rfl, hn, rfl, ⟨_, ind, ⟨⟨[], by simp, rfl⟩, fun _ h => absurd h (Nat.not_lt_zero _), [], by simp, rfl⟩⟩,
    fun _ h => absurd h (Nat.not_lt_zero _), fun _ h => absurd h (Nat.not_lt_zero _), fun _ h => absurd h (Nat.not_lt_zero _), by simp⟩

/-! ## The lists of primitives -/

omit hk

variable {tb : Table} {ln : Nat × Key → Nat}

theorem count_spec : ∀ (L : List (Nat × Key)) (counts : List Nat),
    (∀ x ∈ L, Bht.query tb.cfg tb.tab x.2 = some (ln x) ∧ ln x < counts.length) →
    ∃ counts', L.foldlM (count tb) counts = some counts' ∧ counts'.length = counts.length ∧
      ∀ c < counts.length, counts'.getD c 0 = counts.getD c 0 + L.countP (fun x => ln x = c) := by
  intro L
  induction L with
  | nil => intro counts _; exact ⟨counts, rfl, rfl, by simp⟩
  | cons x L ih =>
    intro counts h
    obtain ⟨hq, hl⟩ := h x List.mem_cons_self
    obtain ⟨counts', e1, e2, e3⟩ := ih (counts.set (ln x) (counts.getD (ln x) 0 + 1)) (fun y hy => by
      rw [List.length_set]; exact h y (List.mem_cons_of_mem _ hy))
    refine ⟨counts', ?_, by rw [e2, List.length_set], ?_⟩
    · rw [List.foldlM_cons]
      have : count tb counts x = some (counts.set (ln x) (counts.getD (ln x) 0 + 1)) := by
        unfold count
        rw [hq, Option.bind_some, List.getElem?_eq_getElem hl, List.getD_eq_getElem?_getD, List.getElem?_eq_getElem hl]
        rfl
      rw [this]
      exact e1
    · intro c hc
      rw [e3 c (by rw [List.length_set]; exact hc), List.countP_cons]
      simp only [List.getD_eq_getElem?_getD, List.getElem?_set]
      by_cases e : ln x = c
      · subst e
        simp [hl]; omega
      · simp [e]

/-- The positions are handed out from the end of each segment. -/
theorem place_spec {off : Nat → Nat} {offsets : List Nat} {n : Nat} (ho : ∀ c < n, offsets[c]? = some (off c)) :
    ∀ (L : List (Nat × Key)) (counts indices : List Nat),
    (∀ x ∈ L, Bht.query tb.cfg tb.tab x.2 = some (ln x) ∧ ln x < n) → n ≤ counts.length →
    (∀ c < n, L.countP (fun x => ln x = c) ≤ counts.getD c 0) → (∀ c < n, off c + counts.getD c 0 ≤ off (c + 1)) →
    (∀ c d, c ≤ d → d ≤ n → off c ≤ off d) → off n ≤ indices.length →
    ∃ counts' indices', L.foldlM (place tb offsets) (counts, indices) = some (counts', indices') ∧ indices'.length = indices.length ∧
      (∀ c < n, counts'.getD c 0 + L.countP (fun x => ln x = c) = counts.getD c 0) ∧
      (∀ c < n, (List.range' (off c + counts'.getD c 0) (L.countP (fun x => ln x = c))).map (indices'[·]?) =
        ((L.filter (fun x => ln x = c)).map fun x => some x.1).reverse) ∧
      ∀ q, (∀ c < n, off c + counts.getD c 0 ≤ q ∨ q < off c) → indices'[q]? = indices[q]? := by
  intro L
  induction L with
  | nil => intro counts indices _ _ _ _ _ _; exact ⟨counts, indices, rfl, rfl, by simp, by simp, fun _ _ => rfl⟩
  | cons x L ih =>
    intro counts indices h hlen hc hs hm hi
    obtain ⟨hq, hl⟩ := h x List.mem_cons_self
    have hcx := hc (ln x) hl
    simp only [List.countP_cons, decide_true, if_true] at hcx
    have hsx := hs (ln x) hl
    have hmx := hm (ln x + 1) n hl (Nat.le_refl _)
    generalize hv : counts.getD (ln x) 0 = v at *
    have hget : ∀ c, (counts.set (ln x) (v - 1)).getD c 0 = if ln x = c then v - 1 else counts.getD c 0 := by
      intro c
      simp only [List.getD_eq_getElem?_getD, List.getElem?_set]
      by_cases e : ln x = c
      · subst e
        simp [show ln x < counts.length by omega]
      · simp [e]
    obtain ⟨counts', indices', e1, e2, e3, e4, e5⟩ := ih (counts.set (ln x) (v - 1)) (indices.set (off (ln x) + (v - 1)) x.1)
      (fun y hy => h y (List.mem_cons_of_mem _ hy)) (by rw [List.length_set]; exact hlen)
      (fun c hcn => by
        have := hc c hcn
        rw [List.countP_cons] at this
        rw [hget]
        by_cases e : ln x = c
        · subst e; simp only [if_true]; omega
        · simp only [e, decide_false, Bool.false_eq_true, if_false] at this ⊢; exact this)
      (fun c hcn => by
        have := hs c hcn
        rw [hget]
        by_cases e : ln x = c
        · subst e; simp only [if_true]; omega
        · simp only [e, if_false]; exact this) hm (by rw [List.length_set]; exact hi)
    have hpl : place tb offsets (counts, indices) x = some (counts.set (ln x) (v - 1), indices.set (off (ln x) + (v - 1)) x.1) := by
      unfold place
      have hg : counts[ln x]? = some v := by
        rw [List.getD_eq_getElem?_getD, List.getElem?_eq_getElem (show ln x < counts.length by omega)] at hv
        rw [List.getElem?_eq_getElem (show ln x < counts.length by omega)]
        exact congrArg some hv
      simp only [hq, Option.bind_some, ho _ hl, hg]
      rw [if_pos ⟨by omega, by omega⟩]
    refine ⟨counts', indices', ?_, by rw [e2, List.length_set], ?_, ?_, ?_⟩
    · rw [List.foldlM_cons, hpl]
      exact e1
    · intro c hcn
      have := e3 c hcn
      rw [hget] at this
      rw [List.countP_cons]
      by_cases e : ln x = c
      · subst e; simp only [if_true, decide_true] at this ⊢; omega
      · simp only [e, decide_false, Bool.false_eq_true, if_false] at this ⊢; exact this
    · intro c hcn
      have h4 := e4 c hcn
      have h3 := e3 c hcn
      rw [hget] at h3
      by_cases e : ln x = c
      · subst e
        simp only [if_true] at h3
        rw [List.countP_cons_of_pos (by simp), List.range'_concat, List.map_append, h4, List.filter_cons_of_pos (by simp)]
        simp only [List.map_cons, List.map_nil, List.reverse_cons]
        congr 1
        have : off (ln x) + counts'.getD (ln x) 0 + 1 * L.countP (fun y => decide (ln y = ln x)) = off (ln x) + (v - 1) := by omega
        rw [this, e5]
        · rw [List.getElem?_set_self (by omega)]
        · intro d hd
          rw [hget]
          by_cases e' : ln x = d
          · subst e'; simp only [if_true]; omega
          · simp only [e', if_false]
            have := hs d hd
            rcases Nat.lt_or_ge d (ln x) with h6 | h6
            · have := hm (d + 1) (ln x) h6 (by omega)
              omega
            · have := hm (ln x + 1) d (by omega) (by omega)
              omega
      · rw [List.countP_cons_of_neg (by simp [e]), List.filter_cons_of_neg (by simp [e])]
        exact h4
    · intro q hqs
      rw [e5, List.getElem?_set_ne]
      · have := hqs (ln x) hl
        omega
      · intro d hd
        have := hqs d hd
        rw [hget]
        by_cases e' : ln x = d
        · subst e'; simp only [if_true]; omega
        · simp only [e', if_false]; exact this

/-! ### All iterations -/

theorem count_visits (cs : List (List Key)) (i : Nat) (k : Key) : ∀ n, cs.length ≤ n →
    ((List.range n).flatMap (visits cs)).count (i, k) = (cs.getD i []).count k := by
  intro n hn
  have one : ∀ j, (visits cs j).count (i, k) = if j = i then (cs.getD i []).count k else 0 := by
    intro j
    unfold visits
    split
    · next e =>
      subst e
      rw [List.count, List.count, List.countP_map]
      refine List.countP_congr fun x _ => ?_
      simp [Function.comp]
    · next e =>
      rw [List.count_eq_zero]
      intro h
      obtain ⟨_, _, e'⟩ := List.mem_map.1 h
      exact e (Prod.mk.inj e').1
  have sum : ∀ n, ((List.range n).flatMap (visits cs)).count (i, k) = if i < n then (cs.getD i []).count k else 0 := by
    intro n
    induction n with
    | zero => simp
    | succ n ih =>
      rw [List.range_succ, List.flatMap_append, List.count_append, ih]
      simp only [List.flatMap_cons, List.flatMap_nil, List.append_nil, one]
      split <;> split <;> split <;> omega
  rw [sum]
  split
  · rfl
  · rw [List.getD_eq_getElem?_getD, List.getElem?_eq_none (by omega)]
    rfl

theorem mem_visits {cs : List (List Key)} {n : Nat} {x : Nat × Key} (h : x ∈ (List.range n).flatMap (visits cs)) : x.2 ∈ cs.flatten := by
  obtain ⟨i, _, h⟩ := List.mem_flatMap.1 h
  obtain ⟨k, hk, rfl⟩ := List.mem_map.1 h
  rw [List.mem_flatten]
  rw [List.getD_eq_getElem?_getD] at hk
  rcases Nat.lt_or_ge i cs.length with h1 | h1
  · rw [List.getElem?_eq_getElem h1] at hk
    exact ⟨_, List.getElem_mem h1, hk⟩
  · rw [List.getElem?_eq_none h1] at hk
    cases hk

theorem mapM_of_map {α β : Type} {f : α → Option β} : ∀ {xs : List α} {l : List β}, xs.map f = l.map some → xs.mapM f = some l := by
  intro xs
  induction xs with
  | nil => intro l h; cases l with
    | nil => rfl
    | cons => cases h
  | cons x xs ih =>
    intro l h
    cases l with
    | nil => cases h
    | cons y l =>
      simp only [List.map_cons, List.cons.injEq] at h
      simp [h.1, ih h.2]

/-- The last two kernels stay inside the arrays, and every cell lists the primitives that have it. -/
theorem lists_spec {T : Type} {cs : List (List Key)} {n : Nat} (hn : cs.length = n) (hk : ∀ k ∈ cs.flatten, k ≠ p.hole)
    (hi : TInv p cs.flatten tb) (hall : ∀ k ∈ cs.flatten, k ∈ tb.ks) (hs : tb.tab.success = true) {sched : List (Nat × Key)}
    (h1 : Interleave n (visits cs) sched) :
    ∃ counts, sched.foldlM (count tb) (List.replicate (tb.tab.cnt + 1) 0) = some counts ∧
      ∀ (offsets indices : List Nat) (sched' : List (Nat × Key)), Sparse.ExScan counts offsets → indices.length = offsets.getD tb.tab.cnt 0 →
        Interleave n (visits cs) sched' →
        ∃ st, sched'.foldlM (place tb offsets) (counts, indices) = some st ∧
          ∀ (scale : T → Rat) (k : Key), k ≠ p.hole → ∃ l, visitCell (⟨scale, tb, st.2, offsets⟩ : Hash T) k = some l ∧
            ∀ i, l.count i = (cs.getD i []).count k := by
  obtain ⟨q1, q2, q3⟩ := hi.query hk hall hs
  let ln : Nat × Key → Nat := fun x => (Bht.query tb.cfg tb.tab x.2).getD 0
  have hln : ∀ x : Nat × Key, x.2 ∈ cs.flatten → Bht.query tb.cfg tb.tab x.2 = some (ln x) ∧ ln x < tb.tab.cnt := by
    intro x hx
    obtain ⟨i, hi, e⟩ := q1 x.2 hx
    have : ln x = i := by simp only [ln, e]; rfl
    rw [this]
    exact ⟨e, hi⟩
  have hm : ∀ {sched : List (Nat × Key)}, Interleave n (visits cs) sched → ∀ x ∈ sched, x.2 ∈ cs.flatten :=
    fun h x hx => mem_visits ((interleave_perm h).mem_iff.1 hx)
  obtain ⟨counts, c1, c2, c3⟩ := count_spec (tb := tb) (ln := ln) sched (List.replicate (tb.tab.cnt + 1) 0) (fun x hx => by
    obtain ⟨a, b⟩ := hln x (hm h1 x hx)
    exact ⟨a, by rw [List.length_replicate]; omega⟩)
  rw [List.length_replicate] at c2 c3
  have c4 : ∀ c < tb.tab.cnt + 1, counts.getD c 0 = sched.countP (fun x => ln x = c) := by
    intro c hc
    rw [c3 c hc, List.getD_eq_getElem?_getD, List.getElem?_replicate, if_pos hc]
    simp
  refine ⟨counts, c1, fun offsets indices sched' hsc hlen h2 => ?_⟩
  obtain ⟨o1, o2⟩ := Sparse.exScan_spec hsc
  have hperm : sched'.Perm sched := (interleave_perm h2).trans (interleave_perm h1).symm
  let off : Nat → Nat := Scan.exclSpec (· + ·) 0 (counts.getD · 0)
  have ho : ∀ c < tb.tab.cnt + 1, offsets[c]? = some (off c) := by
    intro c hc
    have := o2 c (by omega)
    rw [List.getD_eq_getElem?_getD, List.getElem?_eq_getElem (by omega)] at this
    rw [List.getElem?_eq_getElem (by omega)]
    exact congrArg some this
  have hstep : ∀ c, off (c + 1) = off c + counts.getD c 0 := fun c => rfl
  have hcp : ∀ c < tb.tab.cnt, sched'.countP (fun x => ln x = c) = counts.getD c 0 := by
    intro c hc
    rw [c4 c (by omega)]
    exact hperm.countP_eq _
  obtain ⟨counts', indices', p1, p2, p3, p4, _⟩ := place_spec (tb := tb) (ln := ln) (off := off) (offsets := offsets) (n := tb.tab.cnt)
    (fun c hc => ho c (by omega)) sched' counts indices (fun x hx => hln x (hm h2 x hx)) (by omega)
    (fun c hc => Nat.le_of_eq (hcp c hc)) (fun c _ => Nat.le_refl _) (fun c d h _ => Sparse.exclSpec_le _ h)
    (by rw [hlen, o2 _ (by omega)])
  refine ⟨(counts', indices'), p1, fun scale k hkh => ?_⟩
  cases hq : Bht.query tb.cfg tb.tab k with
  | none =>
    refine ⟨[], by simp only [visitCell, hq], fun i => ?_⟩
    symm
    rw [List.count_nil, List.count_eq_zero]
    intro hmem
    have : k ∈ cs.flatten := by
      refine mem_visits (n := cs.length) (x := (i, k)) ?_
      rw [← List.count_pos_iff, count_visits cs i k _ (Nat.le_refl _)]
      exact List.count_pos_iff.2 hmem
    obtain ⟨j, _, e⟩ := q1 k this
    rw [hq] at e
    cases e
  | some c =>
    obtain ⟨hc, hkc⟩ := q2 k c hkh hq
    have hz : counts'.getD c 0 = 0 := by
      have := p3 c hc
      rw [hcp c hc] at this
      omega
    have h4 := p4 c hc
    rw [hz, Nat.add_zero, hcp c hc] at h4
    refine ⟨((sched'.filter (fun x => ln x = c)).map (·.1)).reverse, ?_, fun i => ?_⟩
    · simp only [visitCell, hq, ho c (by omega), ho (c + 1) (by omega), Option.bind_some]
      rw [if_neg (by rw [hstep]; omega), hstep, Nat.add_sub_cancel_left]
      refine mapM_of_map (h4.trans ?_)
      rw [List.map_reverse, List.map_map]
      rfl
    · rw [List.count_reverse, ← count_visits cs i k n (by omega), ← (interleave_perm h2).count_eq, List.count, List.count,
        List.countP_map, List.countP_filter]
      refine List.countP_congr fun x hx => ?_
      obtain ⟨e1, _⟩ := hln x (hm h2 x hx)
      simp only [Function.comp, Bool.and_eq_true, beq_iff_eq, decide_eq_true_eq]
      constructor
      · rintro ⟨rfl, rfl⟩
        have := q3 _ _ _ (hk _ (hm h2 x hx)) hkh e1 hq
        rw [← this]
      · rintro rfl
        rw [hq] at e1
        exact ⟨rfl, (Option.some.inj e1).symm⟩

/-! ## The cells of a box -/

section
variable {T : Type} {m : Nat}
open Verif.Bvh (Box)

/-- One more than the last cell in dimension `d`. -/
def stop (scale : T → Rat) (b : Box (m + 1) T) (d : Fin (m + 1)) : Int :=
  if d = 0 then (scale (b.hi d)).ceil else max (scale (b.hi d)).ceil ((scale (b.lo d)).floor + 1)

theorem zipWith_ofFn {α β γ : Type} {n : Nat} (op : α → β → γ) (f : Fin n → α) (g : Fin n → β) :
    List.zipWith op (List.ofFn f) (List.ofFn g) = List.ofFn fun d => op (f d) (g d) := by
  apply List.ext_getElem
  · simp only [List.length_zipWith, List.length_ofFn, Nat.min_self]
  · intro i h1 h2
    simp only [List.getElem_zipWith, List.getElem_ofFn]

theorem extents_eq (scale : T → Rat) (b : Box (m + 1) T) :
    extents scale b = List.ofFn fun d => (scale (b.hi d)).ceil - (scale (b.lo d)).floor := by
  rw [extents, lower, upper, zipWith_ofFn]

theorem effective_ofFn (e : Fin (m + 1) → Nat) :
    Iter.effective (List.ofFn e) = List.ofFn fun d => if d = 0 then e d else max 1 (e d) := by
  rw [List.ofFn_succ, List.ofFn_succ, Iter.effective, List.map_ofFn]
  congr 1

theorem forall₂_ofFn {α β : Type} {R : α → β → Prop} : ∀ {n : Nat} {f : Fin n → β} {l : List α},
    List.Forall₂ R l (List.ofFn f) ↔ ∃ g : Fin n → α, l = List.ofFn g ∧ ∀ d, R (g d) (f d) := by
  intro n
  induction n with
  | zero =>
    intro f l
    simp only [List.ofFn_zero, List.forall₂_nil_right_iff]
    exact ⟨fun h => ⟨Fin.elim0, h, fun d => d.elim0⟩, fun ⟨_, h, _⟩ => h⟩
  | succ n ih =>
    intro f l
    rw [List.ofFn_succ]
    constructor
    · intro h
      cases h with
      | cons h1 h2 =>
        obtain ⟨g, rfl, hg⟩ := ih.1 h2
        refine ⟨Fin.cons _ g, by rw [List.ofFn_cons], fun d => ?_⟩
        refine Fin.cases ?_ (fun d => ?_) d
        · exact h1
        · exact hg d
    · rintro ⟨g, rfl, hg⟩
      rw [List.ofFn_succ]
      exact .cons (hg 0) (ih.2 ⟨_, rfl, fun d => hg d.succ⟩)

/-- The multi-indices of the loop. -/
theorem mem_locs (scale : T → Rat) (b : Box (m + 1) T) (loc : List Nat) :
    loc ∈ Iter.tuples (Iter.effective ((extents scale b).map Int.toNat)) ↔
      ∃ g : Fin (m + 1) → Nat, loc = List.ofFn g ∧ ∀ d, g d < if d = 0 then ((scale (b.hi d)).ceil - (scale (b.lo d)).floor).toNat
        else max 1 ((scale (b.hi d)).ceil - (scale (b.lo d)).floor).toNat := by
  rw [Iter.mem_tuples, extents_eq, List.map_ofFn, effective_ofFn, forall₂_ofFn]
  rfl

theorem mem_cells {scale : T → Rat} {b : Box (m + 1) T} {ks : List Key} (h : cells scale b = some ks) (k : Key) :
    k ∈ ks ↔ ∃ f : Fin (m + 1) → Int, k = List.ofFn f ∧ ∀ d, (scale (b.lo d)).floor ≤ f d ∧ f d < stop scale b d := by
  unfold cells at h
  split at h
  · cases h
  · cases h
    rw [List.mem_map]
    constructor
    · rintro ⟨loc, hl, rfl⟩
      obtain ⟨g, rfl, hg⟩ := (mem_locs scale b loc).1 hl
      refine ⟨fun d => (scale (b.lo d)).floor + g d, by rw [lower, zipWith_ofFn], fun d => ?_⟩
      have := hg d
      show (scale (b.lo d)).floor ≤ (scale (b.lo d)).floor + (g d : Int) ∧ (scale (b.lo d)).floor + (g d : Int) < _
      refine ⟨by omega, ?_⟩
      unfold stop
      by_cases e : d = 0
      · rw [if_pos e] at this ⊢
        omega
      · rw [if_neg e] at this ⊢
        omega
    · rintro ⟨f, rfl, hf⟩
      refine ⟨List.ofFn fun d => (f d - (scale (b.lo d)).floor).toNat, (mem_locs scale b _).2 ⟨_, rfl, fun d => ?_⟩, ?_⟩
      · have := hf d
        unfold stop at this
        by_cases e : d = 0
        · rw [if_pos e] at this ⊢
          omega
        · rw [if_neg e] at this ⊢
          omega
      · rw [lower, zipWith_ofFn]
        congr 1
        funext d
        have := hf d
        omega

theorem nodup_tuples : ∀ ns, (Iter.tuples ns).Nodup := by
  intro ns
  induction ns with
  | nil => simp [Iter.tuples]
  | cons n ns ih =>
    rw [Iter.tuples, List.nodup_flatMap]
    refine ⟨fun i _ => List.Nodup.map_on (fun a _ b _ e => (List.cons.inj e).2) ih, ?_⟩
    refine List.Pairwise.imp_of_mem ?_ List.nodup_range
    intro i j _ _ hij t h1 h2
    obtain ⟨u, _, rfl⟩ := List.mem_map.1 h1
    obtain ⟨v, _, e⟩ := List.mem_map.1 h2
    exact hij (List.cons.inj e).1.symm

theorem nodup_cells {scale : T → Rat} {b : Box (m + 1) T} {ks : List Key} (h : cells scale b = some ks) : ks.Nodup := by
  unfold cells at h
  split at h
  · cases h
  · cases h
    refine List.Nodup.map_on ?_ (nodup_tuples _)
    intro l hl l' hl' e
    obtain ⟨g, rfl, _⟩ := (mem_locs scale b l).1 hl
    obtain ⟨g', rfl, _⟩ := (mem_locs scale b l').1 hl'
    rw [lower, zipWith_ofFn, zipWith_ofFn] at e
    have := List.ofFn_injective e
    congr 1
    funext d
    have := congrFun this d
    omega

theorem cells_some {scale : T → Rat} {b : Box (m + 1) T} (h : scale (b.lo 0) ≤ scale (b.hi 0)) : ∃ ks, cells scale b = some ks := by
  unfold cells
  rw [if_neg]
  · exact ⟨_, rfl⟩
  · rw [extents_eq, List.ofFn_succ, List.headD_cons]
    have h1 := Rat.floor_le (scale (b.lo 0))
    have h2 := Rat.le_ceil (x := scale (b.hi 0))
    have : ((scale (b.lo 0)).floor : Rat) ≤ ((scale (b.hi 0)).ceil : Rat) := Rat.le_trans h1 (Rat.le_trans h h2)
    have := Rat.intCast_le_intCast.1 this
    omega

end

end Verif.SpatialHash
