import Verif.Model.DenseField
import Verif.Spec.DenseField
import Verif.Props.SmallMat

/-!
Helpers for the fields and tensors with several indices.
-/
namespace Verif.DenseField

variable {α : Type}

theorem shapeSize_go (shape : List Nat) (a : Nat) (ha : a < word) : shape.foldl (fun sz d => sz * d % word) a = a * shape.prod % word := by
  induction shape generalizing a with
  | nil => simp [Nat.mod_eq_of_lt ha]
  | cons d ds ih =>
    rw [List.foldl_cons, ih _ (Nat.mod_lt _ (by decide)), List.prod_cons, Nat.mod_mul_mod, Nat.mul_assoc]

theorem shapeSize_eq (shape : List Nat) : shapeSize shape = shape.prod % word := by
  rw [shapeSize, shapeSize_go _ _ (by decide), Nat.one_mul]

/-- The products of the tails of a shape. -/
def suffixes : List Nat → List Nat
  | [] => [1]
  | n :: ns => (n * ns.prod) % word :: suffixes ns

theorem fill_eq (shape : List Nat) : fill shape = (shape.prod % word, suffixes shape) := by
  induction shape with
  | nil => rfl
  | cons d ds ih =>
    have h : fill (d :: ds) = fillStep d (fill ds) := rfl
    have e : ds.prod % word * d % word = d * ds.prod % word := by rw [Nat.mod_mul_mod, Nat.mul_comm]
    rw [h, ih, fillStep]
    simp only [e, List.prod_cons, suffixes]

theorem length_suffixes (shape : List Nat) : (suffixes shape).length = shape.length + 1 := by
  induction shape with
  | nil => rfl
  | cons d ds ih => simp [suffixes, ih]

theorem getElem?_suffixes (shape : List Nat) (i : Nat) (h : i ≤ shape.length) : (suffixes shape)[i]? = some ((shape.drop i).prod % word) := by
  induction shape generalizing i with
  | nil =>
    have : i = 0 := by simpa using h
    subst this
    rfl
  | cons d ds ih =>
    cases i with
    | zero => simp [suffixes]
    | succ i =>
      simp only [suffixes, List.getElem?_cons_succ, List.drop_succ_cons]
      exact ih i (by simpa using h)

theorem offset_go (shape is : List Nat) (o i : Nat) (ho : o < word) (h : i + is.length ≤ shape.length) :
    is.foldlM (offsetStep (suffixes shape)) (o, i) = some ((o + place (shape.drop i) is) % word, i + is.length) := by
  induction is generalizing o i with
  | nil =>
    have : place (shape.drop i) [] = 0 := by cases shape.drop i <;> rfl
    simp [this, Nat.mod_eq_of_lt ho]
  | cons x xs ih =>
    rw [List.length_cons] at h
    have hd : shape.drop i = shape[i]'(by omega) :: shape.drop (i + 1) := List.drop_eq_getElem_cons (by omega)
    have hs : offsetStep (suffixes shape) (o, i) x = some ((o + x * ((shape.drop (i + 1)).prod % word)) % word, i + 1) := by
      simp only [offsetStep, getElem?_suffixes shape (i + 1) (by omega), Option.map_some]
    rw [List.foldlM_cons, hs]
    simp only [Option.bind_eq_bind, Option.bind_some]
    rw [ih _ _ (Nat.mod_lt _ (by decide)) (by omega), hd, place]
    congr 2
    · rw [Nat.mod_add_mod, ← Nat.add_assoc, Nat.add_mod, Nat.add_mod o, Nat.mul_mod_mod, ← Nat.add_mod o, ← Nat.add_mod]
    · simp; omega

theorem linearOffset_eq (shape is : List Nat) (h : is.length ≤ shape.length) :
    linearOffset (suffixes shape) is = some (place shape is % word) := by
  rw [linearOffset, offset_go shape is 0 0 (by decide) (by omega)]
  simp

theorem offset_none (shape is : List Nat) (o i : Nat) (h : shape.length < i + is.length) (hi : i ≤ shape.length) :
    is.foldlM (offsetStep (suffixes shape)) (o, i) = none := by
  induction is generalizing o i with
  | nil => simp at h; omega
  | cons x xs ih =>
    rw [List.length_cons] at h
    rw [List.foldlM_cons]
    by_cases hc : i + 1 ≤ shape.length
    · simp only [offsetStep, getElem?_suffixes shape (i + 1) hc, Option.map_some, Option.bind_eq_bind, Option.bind_some]
      exact ih _ _ (by omega) hc
    · have : (suffixes shape)[i + 1]? = none := List.getElem?_eq_none (by rw [length_suffixes]; omega)
      simp [offsetStep, this]

theorem within_length {shape is : List Nat} (h : Within shape is) : is.length ≤ shape.length := by
  induction shape generalizing is with
  | nil => cases is with
    | nil => simp
    | cons i is => exact absurd h id
  | cons n ns ih => cases is with
    | nil => simp
    | cons i is => simpa using ih h.2

theorem place_le {shape is : List Nat} (h : Within shape is) : place shape is ≤ shape.prod := by
  induction shape generalizing is with
  | nil => simp [place]
  | cons n ns ih => cases is with
    | nil => simp [place]
    | cons i is =>
      rw [place, List.prod_cons]
      have := ih h.2
      have : (i + 1) * ns.prod ≤ n * ns.prod := Nat.mul_le_mul_right _ h.1
      rw [Nat.add_mul] at this
      omega

theorem place_lt {shape is : List Nat} (h : Within shape is) (hl : is.length = shape.length) : place shape is < shape.prod := by
  induction shape generalizing is with
  | nil => simp [place]
  | cons n ns ih => cases is with
    | nil => simp at hl
    | cons i is =>
      rw [place, List.prod_cons]
      have := ih h.2 (by simpa using hl)
      have : (i + 1) * ns.prod ≤ n * ns.prod := Nat.mul_le_mul_right _ h.1
      rw [Nat.add_mul] at this
      omega

theorem range_mul (n P : Nat) : (List.range n).flatMap (fun i => (List.range P).map (i * P + ·)) = List.range (n * P) := by
  induction n with
  | zero => simp
  | succ n ih =>
    rw [List.range_succ, List.flatMap_append, ih, Nat.add_mul, Nat.one_mul, List.range_add]
    simp

theorem place_tuples (shape : List Nat) : (tuples shape).map (place shape) = List.range shape.prod := by
  induction shape with
  | nil => rfl
  | cons n ns ih =>
    rw [tuples, List.map_flatMap, List.prod_cons, ← range_mul, ← ih]
    simp only [List.map_map]
    rfl

theorem mem_tuples {shape is : List Nat} : is ∈ tuples shape ↔ Within shape is ∧ is.length = shape.length := by
  induction shape generalizing is with
  | nil => cases is <;> simp [tuples, Within]
  | cons n ns ih =>
    rw [tuples, List.mem_flatMap]
    constructor
    · rintro ⟨i, hi, h⟩
      obtain ⟨js, hj, rfl⟩ := List.mem_map.1 h
      have := ih.1 hj
      exact ⟨⟨List.mem_range.1 hi, this.1⟩, by simp [this.2]⟩
    · rintro ⟨h, hl⟩
      cases is with
      | nil => simp at hl
      | cons i is => exact ⟨i, List.mem_range.2 h.1, List.mem_map.2 ⟨is, ih.2 ⟨h.2, by simpa using hl⟩, rfl⟩⟩

theorem place_inj {shape is js : List Nat} (h : Within shape is) (hl : is.length = shape.length) (h' : Within shape js)
    (hl' : js.length = shape.length) (e : place shape is = place shape js) : is = js := by
  have hnd : ((tuples shape).map (place shape)).Nodup := by rw [place_tuples]; exact List.nodup_range
  exact List.inj_on_of_nodup_map hnd (mem_tuples.2 ⟨h, hl⟩) (mem_tuples.2 ⟨h', hl'⟩) e

theorem place_append (shape p r : List Nat) (h : p.length ≤ shape.length) :
    place shape (p ++ r) = place shape p + place (shape.drop p.length) r := by
  induction shape generalizing p with
  | nil =>
    have : p = [] := by simpa using h
    subst this; simp [place]
  | cons n ns ih => cases p with
    | nil => simp [place]
    | cons i is =>
      simp only [List.cons_append, place, List.length_cons, List.drop_succ_cons]
      rw [ih is (by simpa using h), Nat.add_assoc]

/-! ## index_to_coord -/

theorem exsuf_eq (ns : List Nat) (i : Nat) : exsuf ns i = (ns.drop (i + 1)).prod := by
  induction ns generalizing i with
  | nil => simp [exsuf]
  | cons n ns ih =>
    rw [exsuf, List.length_cons, List.range_succ_eq_map, List.map_cons, List.prod_cons, List.map_map, List.drop_succ_cons]
    have h0 : (if 0 > i then (n :: ns).getD 0 0 else 1) = 1 := if_neg (by omega)
    rw [h0, Nat.one_mul]
    cases i with
    | zero =>
      have : ((List.range ns.length).map ((fun j => if j > 0 then (n :: ns).getD j 0 else 1) ∘ Nat.succ)) = (List.range ns.length).map fun j => ns.getD j 0 := by
        apply List.map_congr_left
        intro j _
        simp
      rw [this, Mat.prod_range_getD]
      simp
    | succ i =>
      rw [← ih i, exsuf]
      congr 1
      apply List.map_congr_left
      intro j _
      simp only [Function.comp]
      by_cases hc : j > i
      · rw [if_pos hc, if_pos (by omega)]; simp
      · rw [if_neg hc, if_neg (by omega)]

/-- The coordinates of a number, from the front. -/
def coords : Nat → List Nat → List Nat
  | _, [] => []
  | I, _ :: ns => I / ns.prod :: coords (I % ns.prod) ns

theorem coord_go (ns : List Nat) (k I : Nat) (acc : List Nat) (hk : k ≤ ns.length) :
    ((List.range' k (ns.length - k)).foldl (coordStep ns) (I, acc)).2 = acc ++ coords I (ns.drop k) := by
  induction h : ns.length - k generalizing k I acc with
  | zero =>
    have : ns.drop k = [] := List.drop_eq_nil_of_le (by omega)
    simp [this, coords]
  | succ m ih =>
    have hd : ns.drop k = ns[k]'(by omega) :: ns.drop (k + 1) := List.drop_eq_getElem_cons (by omega)
    rw [List.range'_succ, List.foldl_cons, coordStep, ih _ _ _ (by omega) (by omega), hd, coords, exsuf_eq, List.append_assoc]
    have : I - (ns.drop (k + 1)).prod * (I / (ns.drop (k + 1)).prod) = I % (ns.drop (k + 1)).prod := by
      rw [Nat.mod_def]
    rw [this]
    rfl

theorem indexToCoord_eq (I : Nat) (ns : List Nat) : indexToCoord I ns = coords I ns := by
  have := coord_go ns 0 I [] (by omega)
  rw [Nat.sub_zero, ← List.range_eq_range'] at this
  rw [indexToCoord, this]
  simp

theorem length_coords (I : Nat) (ns : List Nat) : (coords I ns).length = ns.length := by
  induction ns generalizing I with
  | nil => rfl
  | cons n ns ih => simp [coords, ih]

theorem coords_place {ns is : List Nat} (h : Within ns is) (hl : is.length = ns.length) : coords (place ns is) ns = is := by
  induction ns generalizing is with
  | nil => cases is with
    | nil => rfl
    | cons i is => simp at hl
  | cons n ns ih => cases is with
    | nil => simp at hl
    | cons i is =>
      have hl' : is.length = ns.length := by simpa using hl
      have hlt := place_lt h.2 hl'
      rw [coords, place]
      have e1 : (i * ns.prod + place ns is) / ns.prod = i := by
        rw [Nat.mul_comm, Nat.mul_add_div (by omega), Nat.div_eq_of_lt hlt, Nat.add_zero]
      have e2 : (i * ns.prod + place ns is) % ns.prod = place ns is := by
        rw [Nat.mul_comm, Nat.mul_add_mod, Nat.mod_eq_of_lt hlt]
      rw [e1, e2, ih h.2 hl']

/-! ## Tensors -/

theorem zipWith_zero (k : Nat) (c : List Nat) (h : c.length = k) : List.zipWith (· + ·) (List.replicate k 0) c = c := by
  induction k generalizing c with
  | zero => simpa using h
  | succ k ih => cases c with
    | nil => simp at h
    | cons a c => simp [List.replicate_succ, ih c (by simpa using h)]

theorem chain_view (v : View α) (is : List Nat) (hb : v.base.length = v.ext.length) (hl : is.length = v.ext.length) (h : is ≠ []) :
    chain (.inr v) is = some (.inl (v.at is)) := by
  induction is generalizing v with
  | nil => exact absurd rfl h
  | cons i is ih =>
    rw [chain, View.get]
    by_cases hc : v.ext.length = 1
    · have : is = [] := by rw [hc] at hl; simpa using hl
      subst this
      rw [if_pos hc]; rfl
    · rw [if_neg hc]
      have hne : is ≠ [] := by rintro rfl; simp at hl; omega
      rw [ih _ (by simp [hb]) (by simp; simp at hl; omega) hne]
      simp only [View.at, View.coord]
      have : v.base ≠ [] := by intro h; rw [h] at hb; simp at hb; simp [← hb] at hl
      obtain ⟨b, bs, e⟩ := List.exists_cons_of_ne_nil this
      simp [e, Nat.add_comm]

theorem chain_prefix (v : View α) (p : List Nat) (hb : v.base.length = v.ext.length) (hl : p.length < v.ext.length) :
    chain (.inr v) p = some (.inr { tensor := v.tensor, ext := v.ext.drop p.length, pre := v.pre ++ List.zipWith (· + ·) (v.base.take p.length) p, base := v.base.drop p.length }) := by
  induction p generalizing v with
  | nil => simp [chain]
  | cons i is ih =>
    rw [List.length_cons] at hl
    rw [chain, View.get, if_neg (by omega), ih _ (by simp [hb]) (by simp; omega)]
    have : v.base ≠ [] := by intro h; rw [h] at hb; simp at hb; omega
    obtain ⟨b, bs, e⟩ := List.exists_cons_of_ne_nil this
    have : v.ext ≠ [] := by intro h; rw [h] at hl; simp at hl
    obtain ⟨c, cs, e'⟩ := List.exists_cons_of_ne_nil this
    simp [e, e', Nat.add_comm]

end Verif.DenseField
