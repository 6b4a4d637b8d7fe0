import Verif.Model.GridTopo
import Verif.Proof.BhtGrow
import Verif.Proof.GridShuffle

/-! Helper lemmas for `complementTopo`: the table, the vectors and the masks of one level. -/
namespace Verif.Grid

open Verif.BitMask (W)
open Verif.Bht (Sound Seen Ran Finished Inserts)

variable {V α : Type} {c : Bht.Cfg Coord} {s : Bht.St Coord} {task : Nat → Bht.Task Coord} {N : Nat}

theorem returned_iff (s : Bht.St Coord) (t : Nat) : returned (s.pc t) = true ↔ Bht.result s t ≠ none := by
  unfold Bht.result returned
  cases s.pc t <;> simp

/-! ## The table -/

theorem calls_good (hsafe : ∀ sched : List (Nat × Bool), (∀ x ∈ sched, x.1 < N) → Bht.run c task s sched ≠ none)
    (hfin : ∃ s', Ran c task s N s' ∧ Finished s' N) : Good (calls c task N s) fun s' => Ran c task s N s' ∧ Finished s' N := by
  refine ⟨?_, ?_⟩
  · obtain ⟨s', ⟨sched, hx, hr⟩, hf⟩ := hfin
    refine ⟨.ok s', sched, hx, ?_⟩
    rw [hr]
    exact ⟨fun t ht => (returned_iff s' t).2 (hf t ht), rfl⟩
  · rintro o ⟨sched, hx, ho⟩
    cases hr : Bht.run c task s sched with
    | none => exact absurd hr (hsafe sched hx)
    | some s' =>
      rw [hr] at ho
      exact ⟨s', ho.2, ⟨sched, hx, hr⟩, fun t ht => (returned_iff s' t).1 (ho.1 t ht)⟩

/-- The table after `resize`. -/
structure Enlarged (next2pow : Nat → Nat) (n : Nat) (c : Bht.Cfg Coord) (s : Bht.St Coord) (r : Bht.Cfg Coord × Bht.St Coord) : Prop where
  B : r.1.B = c.B
  width : r.1.width = c.width
  size : Bht.evaluateTableSize next2pow c.B n ≤ r.1.size ∧ (r.1.size = c.size ∨ r.1.size = Bht.evaluateTableSize next2pow c.B n)
  hole : r.1.hole = c.hole
  buckets : n ≠ 0 → r.1.nb ≠ 0
  room : n ≤ r.1.size
  cnt : r.2.cnt = s.cnt
  active : r.2.active = s.active
  seen : ∃ old, Seen r.1 { r.2 with pc := fun _ => .start } old
  sound : r.2.success = true → Sound r.1 r.2
  fits : s.cnt < c.B → s.cnt ≤ r.1.limit → s.success = true → r.2.success = true

theorem growTable_good {next2pow : Nat → Nat} {n : Nat} (hp : n ≤ next2pow n) (hB : 2 ≤ c.B) (h : Sound c s) (hn : s.cnt ≤ n) :
    Good (growTable next2pow n c s) (Enlarged next2pow n c s) := by
  have hsz : n ≠ 0 → c.B ∣ Bht.evaluateTableSize next2pow c.B n ∧ 2 * n < Bht.evaluateTableSize next2pow c.B n :=
    fun h0 => Bht.bht_table_size hp h0 (by omega)
  have h0 : n = 0 → Bht.evaluateTableSize next2pow c.B n = 0 := fun e => by simp [Bht.evaluateTableSize, e]
  unfold growTable
  simp only
  split
  · rename_i hle
    refine Good.pure ⟨rfl, rfl, ⟨hle, .inl rfl⟩, rfl, ?_, ?_, rfl, rfl, ?_, fun _ => h, fun _ _ h => h⟩
    · intro hn0 hnb
      have := (hsz hn0).2
      have e : c.nb * c.B = 0 := by rw [show c.nb = 0 from hnb, Nat.zero_mul]
      simp only [Bht.Cfg.size, e] at hle
      omega
    · by_cases hn0 : n = 0
      · omega
      · have := (hsz hn0).2; show n ≤ c.size; omega
    · obtain ⟨slots, hs⟩ := Sound.seen (s := { s with pc := fun _ => .start }) hB ⟨h.placed, h.slot, h.listed⟩ fun _ => rfl
      exact ⟨_, hs⟩
  · rename_i hgt
    have hn0 : n ≠ 0 := fun e => by rw [h0 e] at hgt; omega
    obtain ⟨⟨q, hq⟩, hlt⟩ := hsz hn0
    have hdiv : Bht.evaluateTableSize next2pow c.B n / c.B = q := by rw [hq]; exact Nat.mul_div_cancel_left _ (by omega)
    refine Good.bind (Good.pick ⟨fun _ => 0, trivial⟩) fun indices _ => ?_
    refine Good.bind (calls_good (fun sched hx e => ?_) (Bht.resize_finishes (by exact hB) s.active)) ?_
    · obtain ⟨s2, h1, _⟩ := Bht.bht_resize_safe (c := { c with nb := Bht.evaluateTableSize next2pow c.B n / c.B }) (indices := indices) hB s.active s.cnt sched
      rw [h1] at e
      cases e
    · rintro s' ⟨hr, hf⟩
      obtain ⟨k1, k2, k3⟩ := Bht.resize_seen (c := { c with nb := Bht.evaluateTableSize next2pow c.B n / c.B }) hB hr
      have hnb : Bht.evaluateTableSize next2pow c.B n / c.B ≠ 0 := by
        rw [hdiv]
        rintro rfl
        omega
      have hsize : Bht.evaluateTableSize next2pow c.B n / c.B * c.B = Bht.evaluateTableSize next2pow c.B n := by
        rw [hdiv, Nat.mul_comm, ← hq]
      refine Good.pure ⟨rfl, rfl, ⟨Nat.le_of_eq hsize.symm, .inr hsize⟩, rfl, fun _ => hnb, ?_, k1, k2, ⟨_, k3⟩, fun hok => ?_, fun hM hl _ => ?_⟩
      · show n ≤ Bht.evaluateTableSize next2pow c.B n / c.B * c.B
        rw [hsize]
        omega
      · have hno := (Bht.success_ok (c := { c with nb := Bht.evaluateTableSize next2pow c.B n / c.B }) hnb (fun _ => rfl) hr hok).2
        exact (Sound.resize (c' := { c with nb := Bht.evaluateTableSize next2pow c.B n / c.B }) hB hB rfl h hr hf fun t _ => hno t).1
      · exact Bht.success_kept hr rfl (Bht.resize_room (c := { c with nb := Bht.evaluateTableSize next2pow c.B n / c.B }) hB hr hnb hM hl)

/-- The table after the insertion of the keys of `N` calls. -/
structure Inserted (c : Bht.Cfg Coord) (key : Nat → Coord) (N : Nat) (s s' : Bht.St Coord) : Prop where
  le : s.cnt ≤ s'.cnt
  most : s'.cnt ≤ s.cnt + N
  room : s'.cnt ≤ c.size
  old : ∀ i < s.cnt, s'.active i = s.active i
  new : ∀ i, s.cnt ≤ i → i < s'.cnt → ∃ t < N, s'.active i = key t
  sound : s'.success = true → s.success = true ∧ Sound c s' ∧ ∀ t < N, ∃ i < s'.cnt, s'.active i = key t
  fits : s.cnt + N < c.B → s.cnt + N ≤ c.limit → s.success = true → s'.success = true

theorem insertKeys_good {key : Nat → Coord} (hB : 2 ≤ c.B) {old : Nat → Bht.Pc} (h : Seen c { s with pc := fun _ => .start } old)
    (hs : s.success = true → Sound c s) (hn : N ≠ 0 → c.nb ≠ 0) (hk : ∀ t < N, key t ≠ c.hole) (hroom : s.cnt + N ≤ c.size ∨ Sound c s) :
    Good (insertKeys c key N s) (Inserted c key N s) := by
  have ht : Inserts (fun t => (⟨key t, none, true⟩ : Bht.Task Coord)) := fun t => ⟨rfl, rfl⟩
  have hroom : ∀ s', Ran c (fun t => (⟨key t, none, true⟩ : Bht.Task Coord)) { s with pc := fun _ => .start } N s' → s'.cnt ≤ c.size := by
    intro s' hr
    rcases hroom with h1 | h1
    · have h2 := h.cnt_le hB ht hr
      exact Nat.le_trans h2 h1
    · exact Sound.cnt_le_size (s := { s with pc := fun _ => .start }) hB ⟨h1.placed, h1.slot, h1.listed⟩ (fun _ => rfl) ht hr
  refine Good.mono (calls_good (fun sched hx => h.safe hB ht hroom sched _ hx ⟨[], by simp, rfl⟩) (h.finishes hB ht hroom)) ?_
  rintro s' ⟨hr, hf⟩
  obtain ⟨k1, k2, k3⟩ := h.keys hB ht hr hf
  have k4 := h.cnt_le hB ht hr
  refine ⟨k1, k4, hroom s' hr, k2, k3, fun hok => ?_, fun hM hl hok => ?_⟩
  rotate_left
  · refine Bht.success_kept hr hok ?_
    by_cases hN : N = 0
    · intro t
      have hid := (h.ran hB ht hr).2.2 t (by omega)
      unfold Bht.result
      rw [hid]
      simp
    · exact h.room hB ht hr (hn hN) hM hl
  by_cases hN : N = 0
  · subst hN
    obtain ⟨sched, hx, hr⟩ := hr
    have : sched = [] := by
      cases sched with
      | nil => rfl
      | cons x _ => exact absurd (hx x List.mem_cons_self) (by omega)
    subst this
    simp only [Bht.run, Option.some.injEq] at hr
    subst hr
    have := hs hok
    exact ⟨hok, ⟨this.placed, this.slot, this.listed⟩, fun t ht => by omega⟩
  · obtain ⟨h1, h2⟩ := Bht.success_ok (hn hN) h.idle hr hok
    have h0 := hs h1
    obtain ⟨a, _, _, _, e⟩ := Sound.insert (s := { s with pc := fun _ => .start }) hB ⟨h0.placed, h0.slot, h0.listed⟩ h.idle ht hk hr hf fun t _ => h2 t
    exact ⟨h1, a, e⟩

/-! ## Vectors -/

theorem zeroFrom_length (prev : Nat) (z : α) (xs : List α) (h : prev ≤ xs.length) : (zeroFrom prev z xs).length = xs.length := by
  simp only [zeroFrom, List.length_append, List.length_take, List.length_replicate]
  omega

theorem zeroFrom_old {prev : Nat} {z : α} {xs : List α} (h : prev ≤ xs.length) {b : Nat} (hb : b < prev) : (zeroFrom prev z xs)[b]? = xs[b]? := by
  rw [zeroFrom, List.getElem?_append_left (by rw [List.length_take]; omega), List.getElem?_take_of_lt hb]

theorem zeroFrom_new {prev : Nat} {z : α} {xs : List α} (h : prev ≤ xs.length) {b : Nat} (hb : prev ≤ b) (hx : b < xs.length) :
    (zeroFrom prev z xs)[b]? = some z := by
  have hl : (xs.take prev).length = prev := by rw [List.length_take]; omega
  rw [zeroFrom, List.getElem?_append_right (by omega), hl, List.getElem?_replicate, if_pos (by omega)]

theorem vec_resize [Inhabited α] {n prev : Nat} {v : Vec α} (h1 : prev ≤ v.data.length) (h2 : v.data.length ≤ v.cap) (hn : prev ≤ n) :
    Good (v.resize n) fun v' => v'.data.length = n ∧ n ≤ v'.cap ∧ ∀ b < prev, v'.data[b]? = v.data[b]? := by
  unfold Vec.resize
  split
  · refine Good.pure ⟨?_, ?_, ?_⟩
    · simp only [List.length_take]; omega
    · show n ≤ v.cap; omega
    · intro b hb
      exact List.getElem?_take_of_lt (by omega)
  · refine Good.bind (Good.pick ⟨List.replicate (n - v.data.length) default, List.length_replicate⟩) fun d hd => ?_
    refine Good.pure ⟨?_, ?_, ?_⟩
    · simp only [List.length_append, hd]; omega
    · simp only
      split <;> omega
    · intro b hb
      exact List.getElem?_append_left (by omega)

theorem tiles_resize {n prev : Nat} {ts : List (List (List V))} (h1 : ts.length = prev) (hn : prev ≤ n) :
    Good (resizeTiles n ts) fun ts' => ts'.length = n ∧ ∀ b < prev, ts'[b]? = ts[b]? := by
  unfold resizeTiles
  split
  · omega
  · refine Good.bind (Good.pick ⟨List.replicate (n - ts.length) [], List.length_replicate⟩) fun d hd => ?_
    refine Good.pure ⟨?_, ?_⟩
    · simp only [List.length_append, hd]; omega
    · intro b hb
      exact List.getElem?_append_left (by omega)

/-! ## Masks -/

theorem maskLoop_bit (size : Nat) (has : Nat → Bool) : ∀ (n b o : Nat) (m : W), b + n ≤ 64 → ∀ x,
    (maskLoop size has n b o m).getLsbD x = (m.getLsbD x || (decide (b ≤ x ∧ x < b + n ∧ o + (x - b) < size) && has (o + (x - b)))) := by
  intro n
  induction n with
  | zero =>
    intro b o m _ x
    have : ¬ (b ≤ x ∧ x < b + 0 ∧ o + (x - b) < size) := by omega
    rw [decide_eq_false this]
    simp [maskLoop]
  | succ n ih =>
    intro b o m hb x
    unfold maskLoop
    split
    · rename_i ho
      rw [ih (b + 1) (o + 1) _ (by omega)]
      have hm : (if has o then m ||| (1#64 <<< b) else m).getLsbD x = (m.getLsbD x || (decide (x = b) && has o)) := by
        cases hh : has o
        · simp
        · simp only [if_true, BitVec.getLsbD_or]
          rw [show (1#64 <<< b : W).getLsbD x = (decide (x < 64) && decide (x = b)) from BitMask.getLsbD_one_shl b x]
          by_cases hxb : x = b
          · subst hxb
            simp; omega
          · simp [hxb]
      rw [hm]
      by_cases hx : x = b
      · subst hx
        have e1 : ¬ (x + 1 ≤ x ∧ x < x + 1 + n ∧ o + 1 + (x - (x + 1)) < size) := by omega
        have e2 : x ≤ x ∧ x < x + (n + 1) ∧ o + (x - x) < size := by omega
        rw [decide_eq_false e1, decide_eq_true e2]
        simp
      · by_cases hlt : b < x
        · have e0 : o + 1 + (x - (b + 1)) = o + (x - b) := by omega
          have e1 : (b + 1 ≤ x ∧ x < b + 1 + n ∧ o + (x - b) < size) ↔ (b ≤ x ∧ x < b + (n + 1) ∧ o + (x - b) < size) := by omega
          rw [e0]
          simp only [hx, decide_false, Bool.false_and, Bool.or_false, e1]
        · have e1 : ¬ (b + 1 ≤ x ∧ x < b + 1 + n ∧ o + 1 + (x - (b + 1)) < size) := by omega
          have e2 : ¬ (b ≤ x ∧ x < b + (n + 1) ∧ o + (x - b) < size) := by omega
          rw [decide_eq_false e1, decide_eq_false e2]
          simp [hx]
    · rename_i ho
      have e2 : ¬ (b ≤ x ∧ x < b + (n + 1) ∧ o + (x - b) < size) := by omega
      rw [decide_eq_false e2]
      simp

/-- The word `w` of the mask `b`. -/
def cell (data : List (List W)) (b w : Nat) : Option W := data[b]?.bind fun m => m[w]?

/-- All words of the masks are written: mask `b` has a bit for each child that the table has. -/
theorem masks_all {lay : Layout} {dim i : Nat} (lc : Level V) (origin : Nat → Coord) {n : Nat} :
    ∀ (order : List Nat) (data : List (List W)), order.Nodup → (∀ k ∈ order, k < n * BitMask.wordCount (hierSize lay dim (i + 1))) →
      data.length = n → (∀ (b : Nat) m, data[b]? = some m → m.length = BitMask.wordCount (hierSize lay dim (i + 1))) →
      ∃ data', order.foldlM (maskTask lay dim i lc origin) data = some data' ∧ data'.length = n
        ∧ (∀ (b : Nat) m, data'[b]? = some m → m.length = BitMask.wordCount (hierSize lay dim (i + 1)))
        ∧ (∀ b w, w < BitMask.wordCount (hierSize lay dim (i + 1)) → b * BitMask.wordCount (hierSize lay dim (i + 1)) + w ∈ order →
          cell data' b w = some (maskLoop (hierSize lay dim (i + 1))
            (fun o => (lc.find (addCoord (origin b) (hierCoord lay (i + 1) dim (BitVec.ofNat 32 o)))).isSome) 64 0 (w * 64) 0#64))
        ∧ ∀ b w, w < BitMask.wordCount (hierSize lay dim (i + 1)) → b * BitMask.wordCount (hierSize lay dim (i + 1)) + w ∉ order →
          cell data' b w = cell data b w := by
  generalize hwords : BitMask.wordCount (hierSize lay dim (i + 1)) = words
  intro order
  induction order with
  | nil => intro data _ _ h1 h2; exact ⟨data, rfl, h1, h2, fun _ _ _ h => (List.not_mem_nil h).elim, fun _ _ _ _ => rfl⟩
  | cons k rest ih =>
    intro data hnd hlt h1 h2
    have hk := hlt k List.mem_cons_self
    have hw : 0 < words := by
      rcases Nat.eq_zero_or_pos words with h | h
      · rw [h] at hk; omega
      · exact h
    have hb : k / words < data.length := by rw [h1]; exact Nat.div_lt_of_lt_mul (by rw [Nat.mul_comm]; exact hk)
    have hm := h2 _ _ (List.getElem?_eq_getElem hb)
    have hmod := Nat.mod_lt k hw
    let word := maskLoop (hierSize lay dim (i + 1))
      (fun o => (lc.find (addCoord (origin (k / words)) (hierCoord lay (i + 1) dim (BitVec.ofNat 32 o)))).isSome) 64 0 (k % words * 64) 0#64
    have hstep : maskTask lay dim i lc origin data k = some (data.set (k / words) (data[k / words].set (k % words) word)) := by
      simp only [maskTask, hwords, List.getElem?_eq_getElem hb, Option.bind_some]
      rw [if_pos (by rw [hm]; exact hmod)]
    obtain ⟨data', e, l1, l2, l3, l4⟩ := ih (data.set (k / words) (data[k / words].set (k % words) word)) (List.nodup_cons.1 hnd).2
      (fun k' h => hlt k' (List.mem_cons_of_mem _ h)) (by rw [List.length_set]; exact h1) (by
        intro b m hbm
        by_cases eb : k / words = b
        · subst eb
          rw [List.getElem?_set_self hb] at hbm
          cases hbm
          rw [List.length_set]; exact hm
        · rw [List.getElem?_set_ne eb] at hbm
          exact h2 b m hbm)
    refine ⟨data', ?_, l1, l2, ?_, ?_⟩
    · rw [List.foldlM_cons, hstep]; exact e
    · intro b w hw' hmem
      by_cases hin : b * words + w ∈ rest
      · exact l3 b w hw' hin
      · rw [l4 b w hw' hin]
        have ek : b * words + w = k := by
          rcases List.mem_cons.1 hmem with h | h
          · exact h
          · exact absurd h hin
        have eb : k / words = b := by
          rw [← ek, Nat.mul_comm, Nat.mul_add_div hw, Nat.div_eq_of_lt hw', Nat.add_zero]
        have ew : k % words = w := by
          rw [← ek, Nat.mul_comm, Nat.mul_add_mod, Nat.mod_eq_of_lt hw']
        subst eb
        subst ew
        rw [cell, List.getElem?_set_self hb]
        simp only [Option.bind_some]
        rw [List.getElem?_set_self (by rw [hm]; exact hmod)]
    · intro b w hw' hmem
      rw [l4 b w hw' fun h => hmem (List.mem_cons_of_mem _ h)]
      by_cases eb : k / words = b
      · have ew : k % words ≠ w := by
          intro ew
          apply hmem
          have := Nat.div_add_mod k words
          rw [← eb, ← ew, Nat.mul_comm, this]
          exact List.mem_cons_self
        subst eb
        simp only [cell, List.getElem?_set_self hb, List.getElem?_eq_getElem hb, Option.bind_some]
        rw [List.getElem?_set_ne ew]
      · simp only [cell, List.getElem?_set_ne eb]

/-- The masks after `_update_topo_update_childmask` for all words. -/
structure Masked (lay : Layout) (dim i : Nat) (lc : Level V) (origin : Nat → Coord) (n : Nat) (data : List (List W)) : Prop where
  length : data.length = n
  words : ∀ (b : Nat) m, data[b]? = some m → m.length = BitMask.wordCount (hierSize lay dim (i + 1))
  bit : ∀ (b : Nat) m, data[b]? = some m → ∀ o, BitMask.bit m o
    = (decide (o < hierSize lay dim (i + 1)) && (lc.find (addCoord (origin b) (hierCoord lay (i + 1) dim (BitVec.ofNat 32 o)))).isSome)

theorem masks_good {lay : Layout} {dim i : Nat} (lc : Level V) (origin : Nat → Coord) {n : Nat} (data : List (List W)) (h1 : data.length = n)
    (h2 : ∀ (b : Nat) m, data[b]? = some m → m.length = BitMask.wordCount (hierSize lay dim (i + 1))) :
    Good (launch (n * BitMask.wordCount (hierSize lay dim (i + 1))) (maskTask lay dim i lc origin) data) (Masked lay dim i lc origin n) := by
  refine Good.launch fun order hp => ?_
  have hmem : ∀ k, k ∈ order ↔ k < n * BitMask.wordCount (hierSize lay dim (i + 1)) := fun k => by rw [hp.mem_iff, List.mem_range]
  obtain ⟨data', e, l1, l2, l3, _⟩ := masks_all (lay := lay) (dim := dim) (i := i) lc origin order data (hp.nodup_iff.2 List.nodup_range)
    (fun k hk => (hmem k).1 hk) h1 h2
  refine ⟨data', e, l1, l2, ?_⟩
  intro b m hb o
  have hbn : b < n := by
    rw [← l1]
    exact (List.getElem?_eq_some_iff.1 hb).1
  have hml := l2 b m hb
  have hsz := words_bound (hierSize lay dim (i + 1))
  by_cases ho : o < 64 * m.length
  · have hw : o / 64 < BitMask.wordCount (hierSize lay dim (i + 1)) := by rw [← hml]; omega
    have hin : b * BitMask.wordCount (hierSize lay dim (i + 1)) + o / 64 ∈ order := by
      rw [hmem]
      calc b * BitMask.wordCount (hierSize lay dim (i + 1)) + o / 64 < (b + 1) * BitMask.wordCount (hierSize lay dim (i + 1)) := by
              rw [Nat.add_mul]; omega
        _ ≤ _ := Nat.mul_le_mul_right _ hbn
    have := l3 b (o / 64) hw hin
    simp only [cell, hb, Option.bind_some] at this
    rw [BitMask.bit_get this, maskLoop_bit _ _ 64 0 _ _ (by omega)]
    have e0 : o / 64 * 64 + (o % 64 - 0) = o := by omega
    have e1 : (0 ≤ o % 64 ∧ o % 64 < 0 + 64 ∧ o < hierSize lay dim (i + 1)) ↔ o < hierSize lay dim (i + 1) := by omega
    simp only [e0, e1]
    simp
  · rw [BitMask.bit_ge (by omega), decide_eq_false (by omega)]
    rfl

end Verif.Grid
