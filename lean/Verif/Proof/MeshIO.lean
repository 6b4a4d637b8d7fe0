import Verif.Spec.MeshIO

/-!
Helpers for files of meshes.
-/
namespace Verif.MeshIO

variable {α : Type}

theorem getlines_line {l : Text} (h : '\n' ∉ l) (r : Text) : getlines (l ++ '\n' :: r) = l :: getlines r := by
  induction l with
  | nil => simp [getlines]
  | cons c l ih =>
    simp only [List.mem_cons, not_or] at h
    rw [List.cons_append, getlines, if_neg (fun e => h.1 e.symm), ih h.2]

theorem getlines_last (t : Text) {c : Char} (hc : c ≠ '\n') : getlines (t ++ [c]) = getlines (t ++ [c] ++ ['\n']) := by
  induction t with
  | nil => simp [getlines, hc]
  | cons a t ih => rw [List.cons_append, List.cons_append, getlines, getlines, ih]

theorem getlines_unlines {ls : List Text} (h : ∀ l ∈ ls, '\n' ∉ l) : getlines (unlines ls) = ls := by
  induction ls with
  | nil => rfl
  | cons l ls ih =>
    have e : unlines (l :: ls) = l ++ '\n' :: unlines ls := by simp [unlines]
    rw [e, getlines_line (h l List.mem_cons_self), ih fun l' hl' => h l' (List.mem_cons_of_mem _ hl')]

theorem digit_noWs {c : Char} (h : c.isDigit = true) : isWs c = false := by
  simp only [Char.isDigit, Bool.and_eq_true, decide_eq_true_eq, UInt32.le_iff_toNat_le] at h
  have h1 : 48 ≤ c.toNat := h.1
  have hne : c ≠ ' ' := fun e => by rw [e] at h1; exact absurd h1 (by decide)
  simp only [isWs, Bool.or_eq_false_iff, decide_eq_false_iff_not, Bool.and_eq_false_iff]
  exact ⟨hne, Or.inr (by omega)⟩

theorem printNat_digit {n : Nat} {c : Char} (h : c ∈ printNat n) : c.isDigit = true :=
  Nat.isDigit_of_mem_toDigits (by decide) (by decide) h

theorem takeWhile_word {p : Char → Bool} {w r : Text} (hw : ∀ c ∈ w, p c = true) (hr : ∀ c, r.head? = some c → p c = false) :
    (w ++ r).takeWhile p = w ∧ (w ++ r).dropWhile p = r := by
  induction w with
  | nil =>
    cases r with
    | nil => exact ⟨rfl, rfl⟩
    | cons c r =>
      have := hr c rfl
      simp [List.takeWhile_cons, List.dropWhile_cons, this]
  | cons c w ih =>
    have hc := hw c List.mem_cons_self
    obtain ⟨h1, h2⟩ := ih fun c' hc' => hw c' (List.mem_cons_of_mem _ hc')
    simp [List.takeWhile_cons, List.dropWhile_cons, hc, h1, h2]

theorem drop_blank {w r : Text} (hn : w ≠ []) (hw : ∀ c ∈ w, isWs c = false) : (w ++ r).dropWhile isWs = w ++ r := by
  cases w with
  | nil => exact absurd rfl hn
  | cons c w =>
    rw [List.cons_append, List.dropWhile_cons, if_neg (by simp [hw c List.mem_cons_self])]

theorem readNat_word (n : Nat) {r : Text} (hr : ∀ c, r.head? = some c → c = ' ') : readNat (printNat n ++ r) = some (n, r) := by
  have hw : ∀ c ∈ printNat n, c.isDigit = true := fun c hc => printNat_digit hc
  have hd := drop_blank (r := r) (Nat.toDigits_ne_nil (n := n) (b := 10)) fun c hc => digit_noWs (hw c hc)
  obtain ⟨h1, h2⟩ := takeWhile_word hw (r := r) fun c hc => by rw [hr c hc]; decide
  have hd : (printNat n ++ r).dropWhile isWs = printNat n ++ r := hd
  have hne : printNat n ≠ [] := Nat.toDigits_ne_nil
  rw [readNat, hd, h1, h2, if_neg hne, printNat, Nat.ofDigitChars_ten_toDigits]

theorem readNat_blank (s : Text) : readNat (' ' :: s) = readNat s := rfl

theorem readNum_word {N : Num α} {rd : α → α} (hN : N.Ok rd) (x : α) {r : Text} (hr : ∀ c, r.head? = some c → c = ' ') :
    readNum N (N.print x ++ r) = some (rd x, r) := by
  have hw : ∀ c ∈ N.print x, (!isWs c) = true := fun c hc => by simp [hN.noBlank x c hc]
  obtain ⟨h1, h2⟩ := takeWhile_word hw (r := r) fun c hc => by rw [hr c hc]; decide
  rw [readNum, drop_blank (hN.nonempty x) (hN.noBlank x), h1, h2, hN.parse, Option.map_some]

theorem readNum_blank (N : Num α) (s : Text) : readNum N (' ' :: s) = readNum N s := rfl

theorem head_blank {s : Text} : ∀ c, (' ' :: s).head? = some c → c = ' ' := fun c h => by simpa using h.symm

theorem head_nil : ∀ c, ([] : Text).head? = some c → c = ' ' := fun c h => by cases h

theorem readPt_line {N : Num α} {rd : α → α} (hN : N.Ok rd) (x : Pt α) : readPt N (ptLine N x) = some (rd x.1, rd x.2.1, rd x.2.2) := by
  have h3 := readNum_word hN x.2.2 head_nil
  rw [List.append_nil] at h3
  simp only [readPt, ptLine, spaced]
  rw [readNum_word hN x.1 head_blank, Option.bind_some, readNum_blank, readNum_word hN x.2.1 head_blank, Option.bind_some, readNum_blank, h3, Option.map_some]

theorem readTet_line (shift : Nat) (m : Tet) :
    readTet shift (ignore 128 (tetLine m)) = some (m.1 + shift, m.2.1 + shift, m.2.2.1 + shift, m.2.2.2 + shift) := by
  have h4 := readNat_word m.2.2.2 head_nil
  rw [List.append_nil] at h4
  have e : ignore 128 (tetLine m) = printNat m.1 ++ ' ' :: (printNat m.2.1 ++ ' ' :: (printNat m.2.2.1 ++ ' ' :: printNat m.2.2.2)) := rfl
  rw [e, readTet, readNat_word _ head_blank, Option.bind_some, readNat_blank, readNat_word _ head_blank, Option.bind_some, readNat_blank,
    readNat_word _ head_blank, Option.bind_some, readNat_blank, h4, Option.map_some]

theorem steps_append (N : Num α) (shift : Nat) (a b : List Text) (st : St α) : steps N shift (a ++ b) st = (steps N shift a st).bind (steps N shift b) := by
  induction a generalizing st with
  | nil => rfl
  | cons l a ih =>
    rw [List.cons_append, steps, steps]
    cases step N shift st l with
    | none => rfl
    | some s => simpa using ih s

/-- A line that starts with none of the words. -/
theorem step_other (N : Num α) (shift : Nat) (st : St α) {l : Text} (hn : l ≠ []) (h : l.head? ≠ some 'P' ∧ l.head? ≠ some 'C') :
    step N shift st l = if st.points then (readPt N l).map fun x => { st with X := st.X ++ [x] }
      else if st.tets then (readTet shift (ignore 128 l)).map fun t => { st with T := st.T ++ [t] } else some st := by
  cases l with
  | nil => exact absurd rfl hn
  | cons c l =>
    have h1 : c ≠ 'P' := fun e => h.1 (by simp [e])
    have h2 : c ≠ 'C' := fun e => h.2 (by simp [e])
    simp [step, kwPoints, kwCells, kwTypes, h1, h2]

theorem spaced_head {w : Text} (hw : w ≠ []) (ws : List Text) : spaced (w :: ws) ≠ [] ∧ (spaced (w :: ws)).head? = w.head? := by
  cases w with
  | nil => exact absurd rfl hw
  | cons c w =>
    cases ws with
    | nil => exact ⟨by simp [spaced], rfl⟩
    | cons w' ws => exact ⟨by simp [spaced], rfl⟩

theorem steps_points {N : Num α} {rd : α → α} (hN : N.Ok rd) (shift : Nat) (X : List (Pt α)) (st : St α) (hp : st.points = true) :
    steps N shift (X.map (ptLine N)) st = some { st with X := st.X ++ X.map fun x => (rd x.1, rd x.2.1, rd x.2.2) } := by
  induction X generalizing st with
  | nil => simp [steps]
  | cons x X ih =>
    obtain ⟨h1, h2⟩ := spaced_head (hN.nonempty x.1) [N.print x.2.1, N.print x.2.2]
    have hl : step N shift st (ptLine N x) = _ := step_other N shift st h1 (by rw [ptLine, h2]; exact hN.noWord x.1)
    rw [List.map_cons, steps, hl, if_pos hp]
    rw [readPt_line hN x, Option.map_some, Option.bind_some]
    exact (ih { st with X := st.X ++ [(rd x.1, rd x.2.1, rd x.2.2)] } hp).trans (by simp)

theorem steps_tets (N : Num α) (shift : Nat) (T : List Tet) (st : St α) (hp : st.points = false) (ht : st.tets = true) :
    steps N shift (T.map tetLine) st = some { st with T := st.T ++ T.map fun m => (m.1 + shift, m.2.1 + shift, m.2.2.1 + shift, m.2.2.2 + shift) } := by
  induction T generalizing st with
  | nil => simp [steps]
  | cons m T ih =>
    have h1 : tetLine m ≠ [] := by simp [tetLine, spaced]
    rw [List.map_cons, steps, step_other N shift st h1 (by simp [tetLine, spaced]), if_neg (by simp [hp]), if_pos ht, readTet_line, Option.map_some,
      Option.bind_some]
    exact (ih { st with T := st.T ++ [(m.1 + shift, m.2.1 + shift, m.2.2.1 + shift, m.2.2.2 + shift)] } hp ht).trans (by simp)

theorem steps_types (N : Num α) (shift : Nat) (T : List Tet) (st : St α) (hp : st.points = false) (ht : st.tets = false) :
    steps N shift (T.map fun _ => ['1', '0']) st = some st := by
  induction T with
  | nil => rfl
  | cons m T ih =>
    rw [List.map_cons, steps, step_other N shift st (by simp) (by simp), if_neg (by simp [hp]), if_neg (by simp [ht]), Option.bind_some, ih]

theorem step_points (N : Num α) (shift n : Nat) (w : Text) (st : St α) :
    step N shift st (spaced [kwPoints, printNat n, w]) = some { st with points := true, tets := false, nPoints := n } := by
  have e : ignore 128 (spaced [kwPoints, printNat n, w]) = printNat n ++ ' ' :: w := rfl
  have h1 : spaced [kwPoints, printNat n, w] ≠ [] := (spaced_head (by decide) _).1
  have h2 : (spaced [kwPoints, printNat n, w]).take 6 = kwPoints := rfl
  rw [step, if_neg h1, if_pos h2, e, readNat_word n head_blank, Option.map_some]

theorem step_cells (N : Num α) (shift n : Nat) (w : Text) (st : St α) :
    step N shift st (spaced [kwCells, printNat n, w]) = some { st with points := false, tets := true, nTets := n } := by
  have e : ignore 128 (spaced [kwCells, printNat n, w]) = printNat n ++ ' ' :: w := rfl
  have h1 : spaced [kwCells, printNat n, w] ≠ [] := (spaced_head (by decide) _).1
  have h2 : (spaced [kwCells, printNat n, w]).take 6 ≠ kwPoints := by
    rw [show (spaced [kwCells, printNat n, w]).take 6 = kwCells ++ [' '] from rfl]; decide
  have h3 : (spaced [kwCells, printNat n, w]).take 5 = kwCells := rfl
  rw [step, if_neg h1, if_neg h2, if_pos h3, e, readNat_word n head_blank, Option.map_some]

theorem step_types (N : Num α) (shift : Nat) (w : Text) (st : St α) :
    step N shift st (spaced [kwTypes, w]) = some { st with points := false, tets := false } := by
  have h1 : spaced [kwTypes, w] ≠ [] := (spaced_head (by decide) _).1
  have h2 : (spaced [kwTypes, w]).take 6 ≠ kwPoints := by rw [show (spaced [kwTypes, w]).take 6 = kwTypes.take 6 from rfl]; decide
  have h3 : (spaced [kwTypes, w]).take 5 ≠ kwCells := by rw [show (spaced [kwTypes, w]).take 5 = kwTypes.take 5 from rfl]; decide
  have h4 : (spaced [kwTypes, w]).take 10 = kwTypes := rfl
  rw [step, if_neg h1, if_neg h2, if_neg h3, if_pos h4]

theorem steps_header (N : Num α) (shift : Nat) (st : St α) (hp : st.points = false) (ht : st.tets = false) : steps N shift header st = some st := by
  have key : ∀ l : Text, l ≠ [] → l.take 6 ≠ kwPoints → l.take 5 ≠ kwCells → l.take 10 ≠ kwTypes → step N shift st l = some st := fun l h1 h2 h3 h4 => by
    rw [step, if_neg h1, if_neg h2, if_neg h3, if_neg h4, if_neg (by simp [hp]), if_neg (by simp [ht])]
  rw [header, steps, key _ (by decide) (by decide) (by decide) (by decide), Option.bind_some, steps, key _ (by decide) (by decide) (by decide) (by decide),
    Option.bind_some, steps, key _ (by decide) (by decide) (by decide) (by decide), Option.bind_some, steps,
    key _ (by decide) (by decide) (by decide) (by decide), Option.bind_some, steps]

theorem spaced_noLine {ws : List Text} (h : ∀ w ∈ ws, '\n' ∉ w) : '\n' ∉ spaced ws := by
  induction ws with
  | nil => simp [spaced]
  | cons w ws ih =>
    cases ws with
    | nil => exact h w List.mem_cons_self
    | cons w' ws =>
      have := ih fun v hv => h v (List.mem_cons_of_mem _ hv)
      simp only [spaced, List.mem_append, List.mem_cons, not_or]
      exact ⟨h w List.mem_cons_self, by decide, this⟩

theorem print_noLine {N : Num α} {rd : α → α} (hN : N.Ok rd) (x : α) : '\n' ∉ N.print x := fun h => by
  have := hN.noBlank x _ h
  exact absurd this (by decide)

theorem printNat_noLine (n : Nat) : '\n' ∉ printNat n := fun h => absurd (printNat_digit h) (by decide)

theorem word_rest {w s : Text} (hn : w ≠ []) (hw : ∀ c ∈ w, isWs c = false) : word (w ++ ' ' :: s) = w ∧ rest (w ++ ' ' :: s) = ' ' :: s := by
  obtain ⟨h1, h2⟩ := takeWhile_word (p := fun c => !isWs c) (w := w) (r := ' ' :: s) (fun c hc => by simp [hw c hc])
    fun c hc => by rw [head_blank c hc]; decide
  rw [word, rest, drop_blank hn hw]
  exact ⟨h1, h2⟩

theorem obj_vertex {N : Num α} (m : List (Pt α) × List (Nat × Nat × Nat)) {s : Text} {x : Pt α} (h : readPt N s = some x) :
    objStep N m ('v' :: ' ' :: s) = some (m.1 ++ [x], m.2) := by
  obtain ⟨h1, h2⟩ := word_rest (w := ['v']) (s := s) (by decide) (by decide)
  have h1 : word ('v' :: ' ' :: s) = ['v'] := h1
  have h2 : rest ('v' :: ' ' :: s) = ' ' :: s := h2
  have h3 : readPt N (' ' :: s) = some x := h
  rw [objStep, if_pos h1, h2, h3, Option.map_some]

theorem obj_face (N : Num α) (m : List (Pt α) × List (Nat × Nat × Nat)) (f : Nat × Nat × Nat) :
    objStep N m (spaced [['f'], printNat (f.1 + 1), printNat (f.2.1 + 1), printNat (f.2.2 + 1)]) = some (m.1, m.2 ++ [f]) := by
  obtain ⟨h1, h2⟩ := word_rest (w := ['f']) (s := printNat (f.1 + 1) ++ ' ' :: (printNat (f.2.1 + 1) ++ ' ' :: printNat (f.2.2 + 1))) (by decide) (by decide)
  have h4 := readNat_word (f.2.2 + 1) head_nil
  rw [List.append_nil] at h4
  show objStep N m (['f'] ++ ' ' :: (printNat (f.1 + 1) ++ ' ' :: (printNat (f.2.1 + 1) ++ ' ' :: printNat (f.2.2 + 1)))) = _
  rw [objStep, h1, if_neg (by decide), if_pos rfl, h2, readNat_blank, readNat_word _ head_blank, Option.bind_some, readNat_blank,
    readNat_word _ head_blank, Option.bind_some, readNat_blank, h4, Option.bind_some, if_pos ⟨by omega, by omega, by omega⟩]
  simp

theorem obj_faces (N : Num α) (T : List (Nat × Nat × Nat)) (m : List (Pt α) × List (Nat × Nat × Nat)) :
    (T.map fun f => spaced [['f'], printNat (f.1 + 1), printNat (f.2.1 + 1), printNat (f.2.2 + 1)]).foldlM (objStep N) m = some (m.1, m.2 ++ T) := by
  induction T generalizing m with
  | nil => simp
  | cons f T ih =>
    rw [List.map_cons, List.foldlM_cons, obj_face]
    exact (ih (m.1, m.2 ++ [f])).trans (by simp)

theorem obj_vertices {β : Type} {N : Num α} (line : β → Text) (g : β → Pt α) (h : ∀ x, readPt N (line x) = some (g x)) (X : List β)
    (m : List (Pt α) × List (Nat × Nat × Nat)) :
    (X.map fun x => 'v' :: ' ' :: line x).foldlM (objStep N) m = some (m.1 ++ X.map g, m.2) := by
  induction X generalizing m with
  | nil => simp
  | cons x X ih =>
    rw [List.map_cons, List.foldlM_cons, obj_vertex m (h x)]
    exact (ih (m.1 ++ [g x], m.2)).trans (by simp)

theorem obj_empty (N : Num α) (m : List (Pt α) × List (Nat × Nat × Nat)) : objStep N m [] = some m := by
  have : word [] = [] := rfl
  rw [objStep, this, if_neg (by decide), if_neg (by decide), if_pos rfl]

/-- What the normals of corners in turn do. -/
theorem setNormals_spec (o : Obj α) (offset : Nat) (cs : List (Nat × Option Nat)) (nrm : List (Pt α)) (hv : ∀ c ∈ cs, offset + c.1 < nrm.length)
    (hn : ∀ c ∈ cs, ∀ n, c.2 = some n → n < o.normals.length) :
    ∃ nrm', setNormals o offset cs nrm = some nrm' ∧ nrm'.length = nrm.length ∧
      (∀ i, (i < offset ∨ ∃ v, i = offset + v ∧ ∀ c ∈ cs, c.1 = v → c.2 = none) → nrm'[i]? = nrm[i]?) ∧
      ∀ v n, (∀ c ∈ cs, c.1 = v → c.2 = some n) → (∃ c ∈ cs, c.1 = v) → nrm'[offset + v]? = o.normals[n]? := by
  induction cs generalizing nrm with
  | nil => exact ⟨nrm, rfl, rfl, fun i _ => rfl, fun v n _ ⟨c, hc, _⟩ => by cases hc⟩
  | cons c cs ih =>
    have hv0 := hv c List.mem_cons_self
    have hvs := fun c' hc' => hv c' (List.mem_cons_of_mem c hc')
    have hns := fun c' hc' => hn c' (List.mem_cons_of_mem c hc')
    cases hc2 : c.2 with
    | none =>
      obtain ⟨nrm', h1, h2, h3, h4⟩ := ih nrm hvs hns
      have hs : setNormal o offset nrm c = some nrm := by rw [setNormal, hc2]
      refine ⟨nrm', by rw [setNormals, hs, Option.bind_some, h1], h2, fun i hi => h3 i ?_, fun v n hall ⟨c', hc', e⟩ => ?_⟩
      · rcases hi with hi | ⟨v, hi, hall⟩
        · exact Or.inl hi
        · exact Or.inr ⟨v, hi, fun c' hc' => hall c' (List.mem_cons_of_mem _ hc')⟩
      · refine h4 v n (fun c' hc' => hall c' (List.mem_cons_of_mem _ hc')) ?_
        rcases List.mem_cons.1 hc' with rfl | hc'
        · have := hall c' List.mem_cons_self e
          rw [hc2] at this
          cases this
        · exact ⟨c', hc', e⟩
    | some k =>
      have hk := hn c List.mem_cons_self k hc2
      have hs : setNormal o offset nrm c = some (nrm.set (offset + c.1) o.normals[k]) := by
        rw [setNormal, hc2]
        simp only [List.getElem?_eq_getElem hk, Option.bind_some]
        rw [if_pos hv0]
      obtain ⟨nrm', h1, h2, h3, h4⟩ := ih (nrm.set (offset + c.1) o.normals[k]) (by simpa using hvs) hns
      refine ⟨nrm', by rw [setNormals, hs, Option.bind_some, h1], by rw [h2, List.length_set], fun i hi => ?_, fun v n hall hex => ?_⟩
      · have hne : offset + c.1 ≠ i := by
          rcases hi with hi | ⟨v, hi, hall⟩
          · omega
          · intro e
            have := hall c List.mem_cons_self (by omega)
            rw [hc2] at this
            cases this
        rw [h3 i, List.getElem?_set_ne hne]
        rcases hi with hi | ⟨v, hi, hall⟩
        · exact Or.inl hi
        · exact Or.inr ⟨v, hi, fun c' hc' => hall c' (List.mem_cons_of_mem _ hc')⟩
      · have hall' : ∀ c' ∈ cs, c'.1 = v → c'.2 = some n := fun c' hc' => hall c' (List.mem_cons_of_mem _ hc')
        by_cases hlater : ∃ c' ∈ cs, c'.1 = v
        · exact h4 v n hall' hlater
        · obtain ⟨c', hc', e⟩ := hex
          rcases List.mem_cons.1 hc' with rfl | hc'
          · have hkn := hall c' List.mem_cons_self e
            rw [hc2] at hkn
            cases hkn
            rw [h3 (offset + v) (Or.inr ⟨v, rfl, fun c'' hc'' e'' => absurd ⟨c'', hc'', e''⟩ hlater⟩), ← e, List.getElem?_set_self hv0,
              List.getElem?_eq_getElem hk]
          · exact absurd ⟨c', hc', e⟩ hlater

end Verif.MeshIO
