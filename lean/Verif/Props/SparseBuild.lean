import Verif.Proof.SparseBuild
import Verif.Props.Sparse
/-! Properties of the construction of sparse matrices: C46. -/
namespace Verif.Sparse
open Verif.Phase

variable {V : Type}

/-- What `operator()` reads from a well-formed matrix. -/
theorem get_exact {m : Mat V} {rm : Bool} {A : Nat → Nat → Option V} (h : Csr m rm A) (dflt : V) {i j : Nat}
    (hi : i < m.rows) (hj : j < m.cols) : m.get rm dflt i j = some ((A i j).getD dflt) := by
  have hl : line rm i j < m.outer rm := by
    unfold line Mat.outer
    split <;> assumption
  have ht : target rm i j < m.inner rm := by
    unfold target Mat.inner
    split <;> assumption
  have hA : (if rm then A (line rm i j) (target rm i j) else A (target rm i j) (line rm i j)) = A i j := by
    unfold line target
    cases rm <;> rfl
  have hs := Spmv.csr_ptr h (o := line rm i j) (by omega)
  have he := Spmv.csr_ptr h (o := line rm i j + 1) (by omega)
  have := h.vals
  obtain ⟨g1, g2⟩ := get_spec m rm i j (arr := fun p => m.inds.getD p 0) dflt hs he (h.mono _ hl) (fun p h1 h2 => by
    have h3 := h.last (line rm i j + 1) hl
    exact ⟨getD_some _ (by omega), by omega⟩)
  have entry := h.entry _ hl _ ht
  rw [hA] at entry
  cases hv : A i j with
  | none =>
    refine g1 fun p h1 h2 e => ?_
    obtain ⟨_, a, h4⟩ := Spmv.csr_ind h hl h2
    have := (entry a).2 ⟨p, h1, h2, e, h4⟩
    rw [hv] at this
    cases this
  | some a =>
    obtain ⟨p, h1, h2, e, h4⟩ := (entry a).1 hv
    rw [g2 p h1 h2 e (fun q q1 q2 eq => by
      have := h.distinct _ hl p q h1 h2 q1 (by omega) (e.trans eq.symm)
      omega), h4]
    rfl

theorem zip_mem {is js : List Nat} {e : Nat × Nat} (h : Wanted false (is.zip js) e) : e ∈ is.zip js := by
  rcases h with h | ⟨h, _⟩
  · exact h
  · cases h

theorem wanted_false {keys : List (Nat × Nat)} {e : Nat × Nat} : Wanted false keys e ↔ e ∈ keys := by simp [Wanted]

theorem length_zip_eq {is js : List Nat} (h : is.length = js.length) : (is.zip js).length = is.length := by
  rw [List.length_zip]; omega

theorem outerOf_lt {rm : Bool} {rows cols : Nat} {e : Nat × Nat} (h : e.1 < rows ∧ e.2 < cols) :
    outerOf rm e < if rm then rows else cols := by
  unfold outerOf
  cases rm
  · exact h.2
  · exact h.1

theorem innerOf_lt {rm : Bool} {rows cols : Nat} {e : Nat × Nat} (h : e.1 < rows ∧ e.2 < cols) :
    innerOf rm e < if rm then cols else rows := by
  unfold innerOf
  cases rm
  · exact h.1
  · exact h.2

theorem entry_ext {rm : Bool} {e e' : Nat × Nat} (h1 : outerOf rm e = outerOf rm e') (h2 : innerOf rm e = innerOf rm e') : e = e' := by
  unfold outerOf at h1
  unfold innerOf at h2
  cases rm
  · exact Prod.ext h2 h1
  · exact Prod.ext h1 h2

theorem given_isEmpty {is js : List Nat} {vs : List V} (h : is.length = js.length) (h2 : is.length = vs.length) (i j : Nat) :
    (given is js vs i j).isEmpty = false ↔ (i, j) ∈ is.zip js := by
  have hz := length_zip_eq h
  rw [given, List.isEmpty_eq_false_iff_exists_mem]
  constructor
  · rintro ⟨v, hv⟩
    obtain ⟨t, ht, rfl⟩ := List.mem_map.1 hv
    obtain ⟨h3, h4⟩ := List.mem_filter.1 ht
    have : t.1 = (i, j) := by simpa using h4
    rw [← this]
    exact (List.of_mem_zip h3).1
  · intro hm
    obtain ⟨k, hk, e⟩ := List.getElem_of_mem hm
    have hk' : k < ((is.zip js).zip vs).length := by rw [List.length_zip]; omega
    refine ⟨_, List.mem_map.2 ⟨((is.zip js).zip vs)[k], List.mem_filter.2 ⟨List.getElem_mem hk', ?_⟩, rfl⟩⟩
    rw [List.getElem_zip]
    simpa using e

/-! ## From triplets -/

section
variable {s : Adder V} {cfg : Nat → Bht.Cfg (Nat × Nat)} {rm : Bool} {rows cols : Nat} {is js : List Nat} {vs : List V}

/-- C46: `build` leaves a well-formed matrix that stores at `(i, j)` the sum of the values given for `(i, j)` and
nothing elsewhere, for every triplet list, every order of the accesses and every hash function; unless the hash table
refuses an insertion, in which case the call accesses memory out of bounds (see `build_refused_violated`).

Partial: the key `(i, j)` is not the sentinel of the table, `(0x3f3f3f3f, 0x3f3f3f3f)`. -/
theorem build_partial (laws : s.Commutes) (hB : ∀ a, 2 ≤ (cfg a).B) (hh : ∀ a, ∀ e ∈ is.zip js, e ≠ (cfg a).hole)
    (hr : ∀ e ∈ is.zip js, e.1 < rows ∧ e.2 < cols) (h1 : is.length = js.length) (h2 : is.length = vs.length)
    {r : Outcome V} (h : Build s cfg rm rows cols is js vs r) :
    (∃ m, r = .ok m ∧ m.rows = rows ∧ m.cols = cols ∧ Csr m rm (sumOf s is js vs)) ∨
    (r = .bad ∧ ∃ a tab, Inserted (cfg a) (is.zip js) tab ∧ ∃ t < is.length, Bht.result tab t = some .failure) := by
  have hz := length_zip_eq h1
  have hk : ∀ a e, Wanted false (is.zip js) e → e ≠ (cfg a).hole ∧ outerOf rm e < if rm then rows else cols :=
    fun a e he => ⟨hh a e (wanted_false.1 he), outerOf_lt (hr e (wanted_false.1 he))⟩
  cases h with
  | sizes h => omega
  | hash _ _ hl h =>
    rcases hashed_spec hB hk h (by rw [if_neg (by simp)]; omega) with ⟨_, a, tab, h3, h4⟩ | ⟨h, ks, e, _⟩
    · rw [spawned_false, List.append_nil] at h3 h4
      refine .inr ⟨rfl, a, tab, h3, ?_⟩
      apply Classical.byContradiction
      intro hn
      exact h4 fun t ht e => hn ⟨t, by omega, e⟩
    · cases e
  | entries _ _ hl h hs hne =>
    rcases hashed_spec hB hk h (by rw [if_neg (by simp)]; omega) with ⟨e, _⟩ | ⟨h, ks, e, rd, _⟩
    · cases e
    · cases e
      have := (rd.place _ hs).total
      rw [List.length_range] at this
      exact absurd (this.trans rd.cnt.symm) hne
  | fill _ _ hl h hs heq hi hp =>
    rcases hashed_spec hB hk h (by rw [if_neg (by simp)]; omega) with ⟨e, _⟩ | ⟨h, ks, e, rd, hw⟩
    · cases e
    · cases e
      have hw : ∀ e, e ∈ ks ↔ e ∈ is.zip js := fun e => (hw e).trans wanted_false
      rw [rd.cnt] at hi hp
      rw [← hz] at hp
      obtain ⟨st, rfl, f1, f2, f3⟩ := fill_spec laws rd hw (fun e he => outerOf_lt (hr e he)) hs (by omega) hi hp
      refine .inl ⟨_, rfl, rfl, rfl, ?_⟩
      have hA : ∀ o t, (if rm then sumOf s is js vs o t else sumOf s is js vs t o) =
          sumOf s is js vs (if rm then (o, t) else (t, o)).1 (if rm then (o, t) else (t, o)).2 := by
        intro o t
        cases rm <;> rfl
      refine csr_of_placed (line := fun n => outerOf rm (ks.getD n (0, 0))) (inner := fun n => innerOf rm (ks.getD n (0, 0)))
        (val := fun n => ((((is.zip js).zip vs).filter fun t => t.1 = ks.getD n (0, 0)).map (·.2)).foldl s.add s.zero)
        (rd.place _ hs) (by rw [List.length_range]; exact f1) (by rw [List.length_range]; exact f2)
        (fun n hn => (f3 n (List.mem_range.1 hn)).1) (fun n hn => (f3 n (List.mem_range.1 hn)).2) ?_ ?_ ?_
      · intro n hn
        exact innerOf_lt (hr _ ((hw _).1 (getD_mem _ (List.mem_range.1 hn))))
      · intro k hk l hl e1 e2
        have hk := List.mem_range.1 hk
        have hl := List.mem_range.1 hl
        have := entry_ext e1 e2
        rw [List.getD_eq_getElem?_getD, List.getElem?_eq_getElem hk, List.getD_eq_getElem?_getD, List.getElem?_eq_getElem hl] at this
        exact (List.Nodup.getElem_inj_iff rd.nodup).1 this
      · intro o ho t ht a
        rw [hA]
        generalize hg : (if rm then (o, t) else (t, o)) = e
        have eo : outerOf rm e = o := by rw [← hg]; cases rm <;> rfl
        have ei : innerOf rm e = t := by rw [← hg]; cases rm <;> rfl
        rw [sumOf]
        constructor
        · intro h
          cases hem : (given is js vs e.1 e.2).isEmpty with
          | true => rw [if_pos hem] at h; cases h
          | false =>
            rw [if_neg (by rw [hem]; simp)] at h
            injection h with h
            obtain ⟨n, hn, en⟩ := List.getElem_of_mem ((hw e).2 ((given_isEmpty h1 h2 e.1 e.2).1 hem))
            have en : ks.getD n (0, 0) = e := by
              rw [List.getD_eq_getElem?_getD, List.getElem?_eq_getElem hn, ← en]; rfl
            exact ⟨n, List.mem_range.2 hn, by rw [en, eo], by rw [en, ei], by rw [en, ← h]; rfl⟩
        · rintro ⟨n, hn, h3, h4, rfl⟩
          have en : ks.getD n (0, 0) = e := entry_ext (h3.trans eo.symm) (h4.trans ei.symm)
          have hm : e ∈ is.zip js := (hw e).1 (en ▸ getD_mem _ (List.mem_range.1 hn))
          rw [if_neg (by rw [(given_isEmpty h1 h2 e.1 e.2).2 hm]; simp), en]
          rfl

/-- What is read from the built matrix. -/
theorem build_get_partial (laws : s.Commutes) (hB : ∀ a, 2 ≤ (cfg a).B) (hh : ∀ a, ∀ e ∈ is.zip js, e ≠ (cfg a).hole)
    (hr : ∀ e ∈ is.zip js, e.1 < rows ∧ e.2 < cols) (h1 : is.length = js.length) (h2 : is.length = vs.length)
    {m : Mat V} (h : Build s cfg rm rows cols is js vs (.ok m)) {i j : Nat} (hi : i < rows) (hj : j < cols) :
    m.get rm s.zero i j = some ((given is js vs i j).foldl s.add s.zero) := by
  rcases build_partial laws hB hh hr h1 h2 h with ⟨m', e, hm, hn, hc⟩ | ⟨e, _⟩
  · cases e
    rw [get_exact hc s.zero (hm ▸ hi) (hn ▸ hj), sumOf]
    split
    · rename_i he
      rw [List.isEmpty_iff] at he
      rw [he]; rfl
    · rfl
  · cases e

/-- Two runs, with whatever schedules and hash functions, store the same. -/
theorem build_deterministic_partial {cfg' : Nat → Bht.Cfg (Nat × Nat)} (laws : s.Commutes) (hB : ∀ a, 2 ≤ (cfg a).B)
    (hB' : ∀ a, 2 ≤ (cfg' a).B) (hh : ∀ a, ∀ e ∈ is.zip js, e ≠ (cfg a).hole) (hh' : ∀ a, ∀ e ∈ is.zip js, e ≠ (cfg' a).hole)
    (hr : ∀ e ∈ is.zip js, e.1 < rows ∧ e.2 < cols) (h1 : is.length = js.length) (h2 : is.length = vs.length)
    {m m' : Mat V} (h : Build s cfg rm rows cols is js vs (.ok m)) (h' : Build s cfg' rm rows cols is js vs (.ok m'))
    {i j : Nat} (hi : i < rows) (hj : j < cols) : m.get rm s.zero i j = m'.get rm s.zero i j := by
  rw [build_get_partial laws hB hh hr h1 h2 h hi hj, build_get_partial laws hB' hh' hr h1 h2 h' hi hj]

/-- C46 does not hold when the table refuses an insertion: `insert` then returns the lowest number, the kernel takes
everything but `-1` for the number of a new entry (line 175), and writes `localOffsets[-2147483648]`.  The loop that should
repeat with a larger table comes too late. -/
theorem build_refused_violated (h1 : is.length = js.length) (h2 : is.length = vs.length) {tab : Bht.St (Nat × Nat)}
    (hi : Inserted (cfg 0) (is.zip js) tab) {t : Nat} (ht : t < is.length) (hf : Bht.result tab t = some .failure) :
    Build s cfg rm rows cols is js vs .bad := by
  refine .hash (loc := is) h1 h2 rfl (.bad (tab := tab) ⟨[], counts rm (is.zip js) tab, by rwa [List.append_nil], spawned_false.symm,
    by rw [List.append_nil], ?_⟩)
  symm
  apply tally_none
  exact refused rm fun h => h t (by rw [length_zip_eq h1]; exact ht) hf

end

/-! ## Every call has an outcome -/

/-- Every call gets as many steps as it can need. -/
private def fair (B n : Nat) : List Nat := (List.range n).flatMap fun t => List.replicate (9 * B + 7) t

private theorem fair_lt {B n t : Nat} (h : t ∈ fair B n) : t < n := by
  obtain ⟨u, h2, h3⟩ := List.mem_flatMap.1 h
  rw [List.eq_of_mem_replicate h3]
  exact List.mem_range.1 h2

private theorem fair_count {B n t : Nat} (h : t < n) : 9 * B + 7 ≤ (fair B n).count t := by
  have : List.Sublist (List.replicate (9 * B + 7) t) (fair B n) :=
    List.sublist_flatten_of_mem (List.mem_map.2 ⟨t, List.mem_range.2 h, rfl⟩)
  have := this.count_le t
  rwa [List.count_replicate_self] at this

/-- The kernel with mirrored entries can run. -/
theorem inserted_mirror_exists (c : Bht.Cfg (Nat × Nat)) (hB : 2 ≤ c.B) (mirror : Bool) (keys : List (Nat × Nat)) :
    ∃ tab, Inserted c (keys ++ spawned mirror keys tab) tab := by
  obtain ⟨s1, h1⟩ := Bht.bht_insert_safe (c := c) (task := insertTask keys) (active := fun _ => (0, 0)) (indices := fun _ => 0) hB
    (fun t => ⟨rfl, rfl⟩) ((fair c.B keys.length).map fun t => (t, false))
  have f1 : ∀ t, t < keys.length → Bht.result s1 t ≠ none := fun t ht => Bht.bht_insert_wait_free hB _ t h1 (fair_count ht)
  generalize hall : keys ++ spawned mirror keys s1 = all
  have hle : keys.length ≤ all.length := by rw [← hall, List.length_append]; omega
  obtain ⟨s2, h2⟩ := Bht.bht_insert_safe (c := c) (task := insertTask all) (active := fun _ => (0, 0)) (indices := fun _ => 0) hB
    (fun t => ⟨rfl, rfl⟩) ((fair c.B keys.length ++ fair c.B all.length).map fun t => (t, false))
  have h3 : Bht.run c (insertTask all) s1 ((fair c.B all.length).map fun t => (t, false)) = some s2 := by
    rw [List.map_append, Bht.run_append, ← Bht.run_congr (task := insertTask keys), h1] at h2
    · exact h2
    · intro x hx
      obtain ⟨t, ht, rfl⟩ := List.mem_map.1 hx
      have := fair_lt ht
      show insertTask keys t = insertTask all t
      rw [insertTask, insertTask, ← hall, List.getD_eq_getElem?_getD, List.getD_eq_getElem?_getD, List.getElem?_append_left this]
  have e : spawned mirror keys s2 = spawned mirror keys s1 := by
    unfold spawned
    apply List.filterMap_congr
    intro t ht
    rw [won, won, Bht.bht_result_stable _ h3 t (f1 t (List.mem_range.1 ht))]
  refine ⟨s2, ?_⟩
  rw [e, hall]
  refine ⟨_, _, ⟨_, ?_, h2⟩, fun t ht => Bht.bht_insert_wait_free hB _ t h2 ?_⟩
  · intro x hx
    obtain ⟨t, ht, rfl⟩ := List.mem_map.1 hx
    rcases List.mem_append.1 ht with ht | ht
    · exact Nat.lt_of_lt_of_le (fair_lt ht) hle
    · exact fair_lt ht
  · rw [List.count_append]
    have := fair_count (B := c.B) ht
    omega

theorem inserted_exists (c : Bht.Cfg (Nat × Nat)) (hB : 2 ≤ c.B) (keys : List (Nat × Nat)) : ∃ tab, Inserted c keys tab := by
  obtain ⟨tab, h⟩ := inserted_mirror_exists c hB false keys
  rw [spawned_false, List.append_nil] at h
  exact ⟨tab, h⟩

/-- Every call ends (well, badly, or with an exception). -/
theorem build_total {s : Adder V} (cfg : Nat → Bht.Cfg (Nat × Nat)) (rm : Bool) {rows cols : Nat} {is js : List Nat} {vs : List V}
    (hB : 2 ≤ (cfg 0).B) (hh : ∀ e ∈ is.zip js, e ≠ (cfg 0).hole) (hr : ∀ e ∈ is.zip js, e.1 < rows ∧ e.2 < cols)
    (hn : (cfg 0).nb ≠ 0 ∨ is = []) : ∃ r, Build s cfg rm rows cols is js vs r := by
  by_cases h1 : is.length = js.length
  · by_cases h2 : is.length = vs.length
    · obtain ⟨tab, ht⟩ := inserted_exists (cfg 0) hB (is.zip js)
      have rnd : Round (cfg 0) rm false (if rm then rows else cols) (is.zip js) is tab _ :=
        ⟨[], counts rm (is.zip js) tab, by rwa [List.append_nil], spawned_false.symm, by rw [List.append_nil], rfl⟩
      rcases round_spec hB (fun e he => ⟨hh e (wanted_false.1 he), outerOf_lt (hr e (wanted_false.1 he))⟩)
        (by rw [if_neg (by simp), length_zip_eq h1]; omega) rnd with ⟨e, _⟩ | ⟨cnts, loc', ks, e, rd, _⟩
      · rw [e] at rnd
        exact ⟨_, .hash h1 h2 rfl (.bad rnd)⟩
      · rw [e] at rnd
        have hsucc : tab.success = true := by
          cases hsu : tab.success with
          | true => rfl
          | false =>
            exfalso
            obtain ⟨active, indices, hran, _⟩ := ht
            rcases hn with hn | hn
            · obtain ⟨t, ht, hf⟩ := (Bht.bht_success_flag hn hran).1 hsu
              have := tally_none (counts rm (is.zip js) tab) (List.replicate ((if rm then rows else cols) + 1) 0, is)
                (refused rm fun h => h t ht hf)
              rw [this] at e
              cases e
            · subst hn
              obtain ⟨sched, h3, h4⟩ := hran
              cases sched with
              | nil => cases h4; cases hsu
              | cons x sched => exact Nat.not_lt_zero _ (h3 x List.mem_cons_self)
        obtain ⟨ptrs, hs⟩ := exScan_exists cnts
        have h : Hashed cfg rm false (if rm then rows else cols) (is.zip js) 0 is (some ⟨cfg 0, tab, cnts, loc'⟩) := .ok rnd hsucc
        by_cases hc : ptrs.getD (if rm then rows else cols) 0 = tab.cnt
        · obtain ⟨r, hp⟩ := puts_exists is.length (updateTask s rm ⟨cfg 0, tab, cnts, loc'⟩ ptrs (is.zip js) vs)
            (List.replicate tab.cnt 0, List.replicate tab.cnt s.zero)
          exact ⟨_, .fill h1 h2 rfl h hs hc (List.length_replicate ..) hp⟩
        · exact ⟨_, .entries h1 h2 rfl h hs hc⟩
    · exact ⟨_, .sizes (.inr h2)⟩
  · exact ⟨_, .sizes (.inl h1)⟩

/-- Fewer triplets than a bucket has slots: the call succeeds, whatever the hash functions and the schedule. -/
theorem build_small {s : Adder V} (laws : s.Commutes) {cfg : Nat → Bht.Cfg (Nat × Nat)} {rm : Bool} {rows cols : Nat}
    {is js : List Nat} {vs : List V} (hB : ∀ a, 2 ≤ (cfg a).B) (hh : ∀ a, ∀ e ∈ is.zip js, e ≠ (cfg a).hole)
    (hr : ∀ e ∈ is.zip js, e.1 < rows ∧ e.2 < cols) (h1 : is.length = js.length) (h2 : is.length = vs.length)
    (hn : ∀ a, (cfg a).nb ≠ 0 ∧ is.length < (cfg a).B ∧ is.length ≤ (cfg a).limit) :
    (∃ m, Build s cfg rm rows cols is js vs (.ok m)) ∧
    ∀ r, Build s cfg rm rows cols is js vs r → ∃ m, r = .ok m ∧ m.rows = rows ∧ m.cols = cols ∧ Csr m rm (sumOf s is js vs) := by
  have all : ∀ r, Build s cfg rm rows cols is js vs r →
      ∃ m, r = .ok m ∧ m.rows = rows ∧ m.cols = cols ∧ Csr m rm (sumOf s is js vs) := by
    intro r h
    rcases build_partial laws hB hh hr h1 h2 h with h | ⟨_, a, tab, ⟨_, _, hi, _⟩, t, _, ht⟩
    · exact h
    · rw [length_zip_eq h1] at hi
      exact absurd ht (Bht.bht_insert_room (hB a) (fun _ => ⟨rfl, rfl⟩) (hn a).1 (hn a).2.1 (hn a).2.2 hi t)
  refine ⟨?_, all⟩
  obtain ⟨r, h⟩ := build_total (s := s) cfg rm (vs := vs) (hB 0) (hh 0) hr (.inl (hn 0).1)
  obtain ⟨m, rfl, _⟩ := all r h
  exact ⟨m, h⟩

/-! ## The topology -/

/-- A topology placed by counting. -/
private theorem topo_csr {m : Mat V} {rm : Bool} {L : List Nat} {dst : Nat → Nat} {entry : Nat → Nat × Nat}
    {S : Nat × Nat → Prop} [DecidablePred S]
    (hp : Placed (m.outer rm) (fun n => outerOf rm (entry n)) L m.ptrs dst) (hi : m.inds.length = L.length)
    (h1 : ∀ k ∈ L, m.inds[dst k]? = some (innerOf rm (entry k)))
    (h3 : ∀ k ∈ L, innerOf rm (entry k) < m.inner rm) (h4 : ∀ k ∈ L, ∀ l ∈ L, entry k = entry l → k = l)
    (hS : ∀ e, S e ↔ ∃ k ∈ L, entry k = e) : Csr m.topo rm (pattern S) := by
  refine csr_of_placed (m := m.topo) (line := fun n => outerOf rm (entry n)) (inner := fun n => innerOf rm (entry n))
    (val := fun _ => ()) hp hi (by simp [Mat.topo, hi]) h1 (fun k hk => ?_) h3 (fun k hk l hl e1 e2 => h4 k hk l hl (entry_ext e1 e2)) ?_
  · simp only [Mat.topo, List.getElem?_map, h1 k hk]
    rfl
  · intro o ho t ht a
    have hA : (if rm then pattern S o t else pattern S t o) = pattern S (if rm then (o, t) else (t, o)).1 (if rm then (o, t) else (t, o)).2 := by
      cases rm <;> rfl
    rw [hA]
    generalize hg : (if rm then (o, t) else (t, o)) = e
    have eo : outerOf rm e = o := by rw [← hg]; cases rm <;> rfl
    have ei : innerOf rm e = t := by rw [← hg]; cases rm <;> rfl
    rw [pattern]
    constructor
    · intro h
      split at h
      · rename_i hs
        obtain ⟨k, hk, ek⟩ := (hS e).1 hs
        exact ⟨k, hk, by rw [ek, eo], by rw [ek, ei], rfl⟩
      · cases h
    · rintro ⟨k, hk, e1, e2, _⟩
      rw [if_pos ((hS e).2 ⟨k, hk, entry_ext (e1.trans eo.symm) (e2.trans ei.symm)⟩)]

/-- C46, for the construction of the topology, with or without mirrored entries: subscripts and offsets describe the given
entries (and their mirror images), each once; the values stay as they were.

Partial: as for `build_partial`. -/
theorem build_topo_partial {cfg : Nat → Bht.Cfg (Nat × Nat)} {rm mirror : Bool} {rows cols : Nat} {is js : List Nat} {vals : List V}
    (hB : ∀ a, 2 ≤ (cfg a).B) (hh : ∀ a e, Wanted mirror (is.zip js) e → e ≠ (cfg a).hole)
    (hr : ∀ e, Wanted mirror (is.zip js) e → e.1 < rows ∧ e.2 < cols) (h1 : is.length = js.length)
    {r : Outcome V} (h : BuildTopo cfg rm mirror rows cols is js vals r) :
    (∃ m, r = .ok m ∧ m.rows = rows ∧ m.cols = cols ∧ m.vals = vals ∧ Csr m.topo rm (pattern (Wanted mirror (is.zip js)))) ∨
    (r = .bad ∧ ∃ a tab, Inserted (cfg a) (is.zip js ++ spawned mirror (is.zip js) tab) tab ∧
      ∃ t < (is.zip js ++ spawned mirror (is.zip js) tab).length, Bht.result tab t = some .failure) := by
  have hz := length_zip_eq h1
  have hk : ∀ a e, Wanted mirror (is.zip js) e → e ≠ (cfg a).hole ∧ outerOf rm e < if rm then rows else cols :=
    fun a e he => ⟨hh a e he, outerOf_lt (hr e he)⟩
  cases h with
  | sizes h => omega
  | hash _ hl h =>
    rcases hashed_spec hB hk h (by rw [hl, hz]; exact Nat.le_refl _) with ⟨_, a, tab, h3, h4⟩ | ⟨h, ks, e, _⟩
    · refine .inr ⟨rfl, a, tab, h3, ?_⟩
      apply Classical.byContradiction
      intro hn
      exact h4 fun t ht e => hn ⟨t, ht, e⟩
    · cases e
  | entries _ hl h hs hne =>
    rcases hashed_spec hB hk h (by rw [hl, hz]; exact Nat.le_refl _) with ⟨e, _⟩ | ⟨h, ks, e, rd, _⟩
    · cases e
    · cases e
      have := (rd.place _ hs).total
      rw [List.length_range] at this
      exact absurd (this.trans rd.cnt.symm) hne
  | fill _ hl h hs heq hi hp =>
    rcases hashed_spec hB hk h (by rw [hl, hz]; exact Nat.le_refl _) with ⟨e, _⟩ | ⟨h, ks, e, rd, hw⟩
    · cases e
    · cases e
      rw [rd.cnt] at hi hp
      obtain ⟨st, rfl, f1, f2, f3⟩ := topo_spec rd (fun e he => outerOf_lt (hr e ((hw e).1 he))) hs hi hp
      refine .inl ⟨_, rfl, rfl, rfl, f2, ?_⟩
      refine topo_csr (entry := fun n => ks.getD n (0, 0)) (rd.place _ hs) (by rw [List.length_range]; exact f1)
        (fun n hn => f3 n (List.mem_range.1 hn)) (fun n hn => innerOf_lt (hr _ ((hw _).1 (getD_mem _ (List.mem_range.1 hn))))) ?_ ?_
      · intro k hk l hl e
        have hk := List.mem_range.1 hk
        have hl := List.mem_range.1 hl
        rw [List.getD_eq_getElem?_getD, List.getElem?_eq_getElem hk, List.getD_eq_getElem?_getD, List.getElem?_eq_getElem hl] at e
        exact (List.Nodup.getElem_inj_iff rd.nodup).1 e
      · intro e
        rw [← hw]
        constructor
        · intro he
          obtain ⟨n, hn, en⟩ := List.getElem_of_mem he
          exact ⟨n, List.mem_range.2 hn, by rw [List.getD_eq_getElem?_getD, List.getElem?_eq_getElem hn, ← en]; rfl⟩
        · rintro ⟨n, hn, rfl⟩
          exact getD_mem _ (List.mem_range.1 hn)

/-- Few entries: the call succeeds. -/
theorem build_topo_small {cfg : Nat → Bht.Cfg (Nat × Nat)} {rm mirror : Bool} {rows cols : Nat} {is js : List Nat} {vals : List V}
    (hB : ∀ a, 2 ≤ (cfg a).B) (hh : ∀ a e, Wanted mirror (is.zip js) e → e ≠ (cfg a).hole)
    (hr : ∀ e, Wanted mirror (is.zip js) e → e.1 < rows ∧ e.2 < cols) (h1 : is.length = js.length)
    (hn : ∀ a, (cfg a).nb ≠ 0 ∧ is.length * 2 < (cfg a).B ∧ is.length * 2 ≤ (cfg a).limit) :
    (∃ m, BuildTopo cfg rm mirror rows cols is js vals (.ok m)) ∧
    ∀ r, BuildTopo cfg rm mirror rows cols is js vals r → ∃ m, r = .ok m ∧ m.rows = rows ∧ m.cols = cols ∧ m.vals = vals ∧
      Csr m.topo rm (pattern (Wanted mirror (is.zip js))) := by
  have hz := length_zip_eq h1
  have few : ∀ tab, (is.zip js ++ spawned mirror (is.zip js) tab).length ≤ is.length * 2 := by
    intro tab
    rw [List.length_append, hz, spawned]
    have := List.length_filterMap_le (fun t =>
      let e := (is.zip js).getD t (0, 0)
      if mirror && won tab t && e.1 != e.2 then some (e.2, e.1) else none) (List.range (is.zip js).length)
    rw [List.length_range, hz] at this
    rw [hz]
    omega
  have never : ∀ a tab, Inserted (cfg a) (is.zip js ++ spawned mirror (is.zip js) tab) tab → ∀ t, Bht.result tab t ≠ some .failure := by
    rintro a tab ⟨_, _, hi, _⟩ t
    have := few tab
    have := hn a
    exact Bht.bht_insert_room (hB a) (fun _ => ⟨rfl, rfl⟩) (hn a).1 (by omega) (by omega) hi t
  have all : ∀ r, BuildTopo cfg rm mirror rows cols is js vals r → ∃ m, r = .ok m ∧ m.rows = rows ∧ m.cols = cols ∧ m.vals = vals ∧
      Csr m.topo rm (pattern (Wanted mirror (is.zip js))) := by
    intro r h
    rcases build_topo_partial hB hh hr h1 h with h | ⟨_, a, tab, hi, t, _, ht⟩
    · exact h
    · exact absurd ht (never a tab hi t)
  refine ⟨?_, all⟩
  suffices h : ∃ r, BuildTopo cfg rm mirror rows cols is js vals r by
    obtain ⟨r, h⟩ := h
    obtain ⟨m, rfl, _⟩ := all r h
    exact ⟨m, h⟩
  obtain ⟨tab, ht⟩ := inserted_mirror_exists (cfg 0) (hB 0) mirror (is.zip js)
  have hl : (List.replicate (if mirror then is.length * 2 else is.length) 0).length = if mirror then is.length * 2 else is.length :=
    List.length_replicate ..
  have rnd : Round (cfg 0) rm mirror (if rm then rows else cols) (is.zip js) (List.replicate (if mirror then is.length * 2 else is.length) 0) tab _ :=
    ⟨_, _, ht, rfl, List.Perm.refl _, rfl⟩
  rcases round_spec (hB 0) (fun e he => ⟨hh 0 e he, outerOf_lt (hr e he)⟩) (by rw [hl, hz]; exact Nat.le_refl _) rnd with
    ⟨e, _⟩ | ⟨cnts, loc', ks, e, rd, _⟩
  · rw [e] at rnd
    exact ⟨_, .hash h1 hl (.bad rnd)⟩
  · rw [e] at rnd
    have hsucc : tab.success = true := by
      cases hsu : tab.success with
      | true => rfl
      | false =>
        obtain ⟨_, _, hran, _⟩ := id ht
        obtain ⟨t, hf⟩ := (Bht.bht_success_flag (hn 0).1 hran).1 hsu
        exact absurd hf.2 (never 0 tab ht t)
    obtain ⟨ptrs, hs⟩ := exScan_exists cnts
    have h : Hashed cfg rm mirror (if rm then rows else cols) (is.zip js) 0 _ (some ⟨cfg 0, tab, cnts, loc'⟩) := .ok rnd hsucc
    by_cases hc : ptrs.getD (if rm then rows else cols) 0 = tab.cnt
    · obtain ⟨r, hp⟩ := puts_exists tab.cnt (topoTask rm ⟨cfg 0, tab, cnts, loc'⟩ ptrs) (List.replicate tab.cnt 0, vals)
      exact ⟨_, .fill h1 hl h hs hc (List.length_replicate ..) hp⟩
    · exact ⟨_, .entries h1 hl h hs hc⟩

/-- `fastBuild`: the same without a table, hence without failure, for entries that are given once. -/
theorem fast_build_exact {rm mirror : Bool} {rows cols : Nat} {is js : List Nat} {vals : List V}
    (hr : ∀ e, Wanted mirror (is.zip js) e → e.1 < rows ∧ e.2 < cols) (h1 : is.length = js.length) (hd : (is.zip js).Nodup)
    (hm : mirror = true → ∀ e ∈ is.zip js, e.1 ≠ e.2 → (e.2, e.1) ∉ is.zip js)
    {r : Outcome V} (h : FastBuild rm mirror rows cols is js vals r) :
    ∃ m, r = .ok m ∧ m.rows = rows ∧ m.cols = cols ∧ m.vals = vals ∧ Csr m.topo rm (pattern (Wanted mirror (is.zip js))) := by
  have hz := length_zip_eq h1
  have hw := fast_wanted mirror (is.zip js)
  have hseg : ∀ n ∈ fastSlots mirror (is.zip js), outerOf rm (fastEntry (is.zip js) n) < if rm then rows else cols :=
    fun n hn => outerOf_lt (hr _ ((hw _).1 ⟨n, hn, rfl⟩))
  have first : ∀ {ops : List Tally} {loc : List Nat}, loc.length = is.length * 2 →
      Interleave is.length (recordTask rm mirror (is.zip js)) ops →
      ∃ L cnts loc', L.Perm (fastSlots mirror (is.zip js)) ∧
        ops.foldlM tally (List.replicate ((if rm then rows else cols) + 1) 0, loc) = some (cnts, loc') ∧
        loc'.length = loc.length ∧ ∀ ptrs, ExScan cnts ptrs → Placed (if rm then rows else cols)
          (fun n => outerOf rm (fastEntry (is.zip js) n)) L ptrs fun k => ptrs.getD (outerOf rm (fastEntry (is.zip js) k)) 0 + loc'.getD k 0 := by
    intro ops loc hl hi
    have hp := interleave_perm hi
    rw [← hz, record_tallies] at hp
    obtain ⟨L, hL, rfl⟩ := tallies_of_perm hp
    obtain ⟨cnts, loc', p1, p2, p3⟩ := placed (nsegs := if rm then rows else cols) (line := fun n => outerOf rm (fastEntry (is.zip js) n))
      (L := L) (loc0 := loc) (hL.nodup_iff.2 (fastSlots_nodup _ _)) (fun k hk => by
        have hk := hL.mem_iff.1 hk
        have := (mem_fastSlots.1 hk).1
        exact ⟨hseg k hk, by omega⟩)
    exact ⟨L, cnts, loc', hL, p1, p2, p3⟩
  cases h with
  | sizes h => omega
  | record _ hl hi hnone =>
    obtain ⟨_, _, _, _, e, _⟩ := first hl hi
    rw [e] at hnone
    cases hnone
  | fill _ hl hi hsome hs hlen hp =>
    obtain ⟨L, cnts, loc', hL, e, p2, p3⟩ := first hl hi
    rw [e] at hsome
    cases hsome
    have pl := (p3 _ hs).perm hL
    rw [← hz] at hp
    obtain ⟨st, rfl, f1, f2, f3⟩ := fast_spec pl hseg (by omega) (by rw [hlen, pl.total]) hp
    exact ⟨_, rfl, rfl, rfl, f2, topo_csr (entry := fastEntry (is.zip js)) pl f1 f3 (fun n hn => innerOf_lt (hr _ ((hw _).1 ⟨n, hn, rfl⟩)))
      (fast_distinct hd hm) (fun e => (hw e).symm)⟩

/-- `fastBuild` ends. -/
theorem fast_build_total (rm mirror : Bool) (rows cols : Nat) (is js : List Nat) (vals : List V) :
    ∃ r, FastBuild rm mirror rows cols is js vals r := by
  by_cases h1 : is.length = js.length
  · obtain ⟨ops, hi⟩ := interleave_exists is.length (recordTask rm mirror (is.zip js))
    have hl : (List.replicate (is.length * 2) 0).length = is.length * 2 := List.length_replicate ..
    cases e : ops.foldlM tally (List.replicate ((if rm then rows else cols) + 1) 0, List.replicate (is.length * 2) 0) with
    | none => exact ⟨_, .record h1 hl hi e⟩
    | some st =>
      obtain ⟨ptrs, hs⟩ := exScan_exists st.1
      obtain ⟨r, hp⟩ := puts_exists is.length (fastTask rm mirror st.2 ptrs (is.zip js))
        (List.replicate (ptrs.getD (if rm then rows else cols) 0) 0, vals)
      exact ⟨_, .fill h1 hl hi e hs (List.length_replicate ..) hp⟩
  · exact ⟨_, .sizes h1⟩

/-! ## Kinds of values -/

/-- Integers: one component. -/
def intAdder : Adder Int := { parts := 1, zero := 0, addPart := fun _ x a => x + a }

theorem intAdder_add (x a : Int) : intAdder.add x a = x + a := rfl

theorem intAdder_commutes : intAdder.Commutes := by
  intro d e x a b
  show x + a + b = x + b + a
  omega

/-- Blocks of `n` integers, `zs::vec<int, n>`. -/
def blockAdder (n : Nat) : Adder (Fin n → Int) :=
  { parts := n, zero := fun _ => 0, addPart := fun d x a i => if i.val = d then x i + a i else x i }

theorem blockAdder_add (n : Nat) (x a : Fin n → Int) : (blockAdder n).add x a = fun i => x i + a i := by
  have : ∀ k x, (List.range k).foldl (fun x d => (blockAdder n).addPart d x a) x = fun i => if i.val < k then x i + a i else x i := by
    intro k
    induction k with
    | zero => intro x; rfl
    | succ k ih =>
      intro x
      rw [List.range_succ, List.foldl_append, ih]
      funext i
      simp only [blockAdder, List.foldl_cons, List.foldl_nil]
      by_cases h : i.val = k
      · rw [if_pos h, if_neg (by omega), if_pos (by omega)]
      · rw [if_neg h]
        by_cases h2 : i.val < k
        · rw [if_pos h2, if_pos (by omega)]
        · rw [if_neg h2, if_neg (by omega)]
  funext i
  exact (congrFun (this n x) i).trans (if_pos i.isLt)

theorem blockAdder_commutes (n : Nat) : (blockAdder n).Commutes := by
  intro d e x a b
  funext i
  simp only [blockAdder]
  by_cases h1 : i.val = d <;> by_cases h2 : i.val = e
  · simp only [if_pos h1, if_pos h2]; omega
  · simp only [if_pos h1, if_neg h2]
  · simp only [if_neg h1, if_pos h2]
  · simp only [if_neg h1, if_neg h2]

/-- Integer values: what is read is the ordinary sum of the values given for the entry. -/
theorem build_int_partial {cfg : Nat → Bht.Cfg (Nat × Nat)} {rm : Bool} {rows cols : Nat} {is js : List Nat} {vs : List Int}
    (hB : ∀ a, 2 ≤ (cfg a).B) (hh : ∀ a, ∀ e ∈ is.zip js, e ≠ (cfg a).hole)
    (hr : ∀ e ∈ is.zip js, e.1 < rows ∧ e.2 < cols) (h1 : is.length = js.length) (h2 : is.length = vs.length)
    {m : Mat Int} (h : Build intAdder cfg rm rows cols is js vs (.ok m)) {i j : Nat} (hi : i < rows) (hj : j < cols) :
    m.get rm 0 i j = some (given is js vs i j).sum := by
  refine (build_get_partial intAdder_commutes hB hh hr h1 h2 h hi hj).trans ?_
  have : ∀ (l : List Int) (x : Int), l.foldl intAdder.add x = x + l.sum := by
    intro l
    induction l with
    | nil => intro x; simp
    | cons a l ih => intro x; rw [List.foldl_cons, ih, intAdder_add, List.sum_cons]; omega
  rw [this]
  show some (0 + _) = _
  rw [Int.zero_add]

/-! ## Examples -/

/-- A table of 16 buckets of 16 slots. -/
private def table (hf : Nat → Nat × Nat → Nat) : Bht.Cfg (Nat × Nat) :=
  { B := 16, nb := 16, hf := hf, hole := (0x3f3f3f3f, 0x3f3f3f3f), width := 32 }

/-- Five triplets, two of which are for the same entry, in a 3 × 4 matrix; arbitrary hash functions. -/
example (hf : Nat → Nat → Nat × Nat → Nat) (rm : Bool) :
    ∃ m, Build intAdder (fun a => table (hf a)) rm 3 4 [2, 0, 2, 1, 0] [1, 3, 1, 0, 0] [5, 7, 2, -4, 9] (.ok m) ∧
      m.get rm 0 2 1 = some 7 ∧ m.get rm 0 0 3 = some 7 ∧ m.get rm 0 1 0 = some (-4) ∧ m.get rm 0 1 1 = some 0 := by
  have hB : ∀ a, 2 ≤ (table (hf a)).B := fun a => show 2 ≤ 16 by decide
  have hh : ∀ a : Nat, ∀ e ∈ [2, 0, 2, 1, 0].zip [1, 3, 1, 0, 0], e ≠ (table (hf a)).hole := fun a =>
    show ∀ e ∈ [2, 0, 2, 1, 0].zip [1, 3, 1, 0, 0], e ≠ (0x3f3f3f3f, 0x3f3f3f3f) by decide
  have hr : ∀ e ∈ [2, 0, 2, 1, 0].zip [1, 3, 1, 0, 0], e.1 < 3 ∧ e.2 < 4 := by decide
  obtain ⟨⟨m, hm⟩, _⟩ := build_small (rm := rm) (vs := [5, 7, 2, -4, 9]) intAdder_commutes hB hh hr rfl rfl
    (fun a => ⟨show 16 ≠ 0 by decide, show 5 < 16 by decide, show 5 ≤ (256 + 2 ^ 32 - 20) % 2 ^ 32 by decide⟩)
  have g := fun {i j : Nat} => build_int_partial hB hh hr rfl rfl hm (i := i) (j := j)
  exact ⟨m, hm, (g (by decide) (by decide)).trans rfl, (g (by decide) (by decide)).trans rfl, (g (by decide) (by decide)).trans rfl, (g (by decide) (by decide)).trans rfl⟩

/-- A mirrored topology. -/
example (hf : Nat → Nat → Nat × Nat → Nat) (rm : Bool) :
    ∃ m, BuildTopo (fun a => table (hf a)) rm true 4 4 [2, 0, 2, 1] [1, 3, 1, 1] ([] : List Int) (.ok m) ∧
      Csr m.topo rm (pattern (Wanted true [(2, 1), (0, 3), (2, 1), (1, 1)])) ∧ pattern (Wanted true [(2, 1), (0, 3), (2, 1), (1, 1)]) 3 0 = some () := by
  have hw : ∀ e, Wanted true ([2, 0, 2, 1].zip [1, 3, 1, 1]) e → e.1 < 4 ∧ e.2 < 4 := by
    intro e he
    have key : ∀ e ∈ [2, 0, 2, 1].zip [1, 3, 1, 1], e.1 < 4 ∧ e.2 < 4 := by decide
    rcases he with he | ⟨_, he⟩
    · exact key e he
    · exact (key _ he).symm
  obtain ⟨⟨m, hm⟩, all⟩ := build_topo_small (cfg := fun a => table (hf a)) (rm := rm) (vals := ([] : List Int)) (fun a => show 2 ≤ 16 by decide) (fun a e he e2 => by
    have := (hw e he).1
    rw [e2] at this
    exact absurd this (show ¬ 0x3f3f3f3f < 4 by decide)) hw rfl (fun a => ⟨show 16 ≠ 0 by decide, show 8 < 16 by decide, show 8 ≤ (256 + 2 ^ 32 - 20) % 2 ^ 32 by decide⟩)
  obtain ⟨m', e, _, _, _, h⟩ := all _ hm
  cases e
  exact ⟨m, hm, h, by decide⟩

/-- `fastBuild` for a matrix with four entries. -/
example (rm : Bool) : ∃ m, FastBuild rm true 4 4 [2, 0, 1] [1, 3, 1] ([] : List Int) (.ok m) ∧
    Csr m.topo rm (pattern (Wanted true [(2, 1), (0, 3), (1, 1)])) := by
  obtain ⟨r, h⟩ := fast_build_total rm true 4 4 [2, 0, 1] [1, 3, 1] ([] : List Int)
  obtain ⟨m, rfl, _, _, _, hc⟩ := fast_build_exact (mirror := true) (rows := 4) (cols := 4) (is := [2, 0, 1]) (js := [1, 3, 1]) (by
    intro e he
    have key : ∀ e ∈ [2, 0, 1].zip [1, 3, 1], e.1 < 4 ∧ e.2 < 4 := by decide
    rcases he with he | ⟨_, he⟩
    · exact key e he
    · exact (key _ he).symm) rfl (by decide) (by decide) h
  exact ⟨m, h, hc⟩

/-- The table `bht` allocates for 16 entries, and hash functions under which all keys collide. -/
private def clash : Bht.Cfg (Nat × Nat) := { B := 16, nb := 3, hf := fun _ _ => 0, hole := (0x3f3f3f3f, 0x3f3f3f3f), width := 32 }

private def clashKeys : List (Nat × Nat) := (List.range 16).zip (List.replicate 16 0)

private def clashSched : List (Nat × Bool) := (List.range 16).flatMap fun t => List.replicate (if t < 15 then t + 8 else 52) (t, false)

private def clashRun : Option (Bht.St (Nat × Nat)) :=
  Bht.run clash (insertTask clashKeys) (clash.empty 0 (fun _ => (0, 0)) (fun _ => 0)) clashSched

private theorem clash_run : clashRun.map (fun s => ((List.range 16).all fun t => (Bht.result s t).isSome, Bht.result s 15)) = some (true, some .failure) := by
  decide +kernel

/-- 16 distinct entries that collide are enough for an access out of bounds, although the table was made for 16 entries. -/
theorem build_collision_violated : clash.size = Bht.evaluateTableSize (fun _ => 16) 16 16 ∧
    ∃ vs : List Int, vs.length = 16 ∧ Build intAdder (fun _ => clash) true 16 1 (List.range 16) (List.replicate 16 0) vs .bad := by
  refine ⟨by decide, List.replicate 16 1, by decide, ?_⟩
  cases h : clashRun with
  | none => have := clash_run; rw [h] at this; cases this
  | some s =>
    have h2 := clash_run
    rw [h] at h2
    simp only [Option.map_some, Option.some.injEq, Prod.mk.injEq, List.all_eq_true, List.mem_range] at h2
    exact build_refused_violated (cfg := fun _ => clash) (tab := s) (t := 15) (by decide) (by decide)
      ⟨_, _, ⟨clashSched, by decide +kernel, h⟩, fun t ht => Option.isSome_iff_ne_none.1 (h2.1 t ht)⟩ (by decide) h2.2

end Verif.Sparse
