import Verif.Proof.DenseField

/-!
Fields and tensors with several indices (C102).
-/
namespace Verif.DenseField

variable {α : Type}

/-! ## Fields -/

/-- A field of a shape with fewer than 2^64 elements has one element for each tuple of indices and as many dimensions as the shape; so has a
reshaped field, which keeps the elements in front. -/
theorem create_exact (shape : List Nat) (junk : Nat → α) (h : shape.prod < 2 ^ 64) :
    (create shape junk).field.length = (tuples shape).length ∧ (create shape junk).dims = shape.length ∧
    ∀ f : Field α, (reshape f shape junk).field.length = (tuples shape).length ∧ (reshape f shape junk).dims = shape.length ∧
      (reshape f shape junk).shape = (create shape junk).shape ∧
      ∀ i, i < f.field.length → i < shape.prod → (reshape f shape junk).field[i]? = f.field[i]? := by
  have hw : shape.prod % word = shape.prod := Nat.mod_eq_of_lt h
  have ht : (tuples shape).length = shape.prod := by
    have := congrArg List.length (place_tuples shape); simpa using this
  refine ⟨by simp [create, shapeSize_eq, hw, ht], by simp [create, Field.dims, fill_eq, length_suffixes], fun f => ⟨?_, ?_, rfl, ?_⟩⟩
  · simp [reshape, resize, fill_eq, hw, ht]
  · simp [reshape, Field.dims, fill_eq, length_suffixes]
  · intro i h1 h2
    simp [reshape, resize, fill_eq, hw, List.getElem?_range h2, List.getElem?_eq_getElem h1]

example : [3, 4, 5].prod < 2 ^ 64 ∧ (create [3, 4, 5] id).field.length = 60 := by decide +kernel

/-- Reading at all tuples of indices in dictionary order reads the elements in the order of memory, which is that of the iterators; different
tuples are different elements. -/
theorem read_order (shape : List Nat) (f : Field α) (hf : f.shape = (fill shape).2) (hl : f.field.length = shape.prod)
    (h : shape.prod < 2 ^ 64) : (tuples shape).map f.read = f.field.map some ∧ (tuples shape).Nodup := by
  have hnd : ((tuples shape).map (place shape)).Nodup := by rw [place_tuples]; exact List.nodup_range
  refine ⟨?_, hnd.of_map⟩
  have e : (tuples shape).map f.read = ((tuples shape).map (place shape)).map fun o => f.field[o]? := by
    rw [List.map_map]
    apply List.map_congr_left
    intro is hi
    have hm := mem_tuples.1 hi
    have : place shape is % word = place shape is := Nat.mod_eq_of_lt (Nat.lt_trans (place_lt hm.1 hm.2) h)
    simp [Field.read, hf, fill_eq, linearOffset_eq shape is (Nat.le_of_eq hm.2), this]
  rw [e, place_tuples, ← hl]
  apply List.ext_getElem?
  intro i
  by_cases hi : i < f.field.length
  · simp [List.getElem?_range hi, List.getElem?_eq_getElem hi]
  · rw [List.getElem?_eq_none (by simpa using hi), List.getElem?_eq_none (by simpa using hi)]

example : (tuples [2, 3]).map (create [2, 3] (· + 10)).read = [10, 11, 12, 13, 14, 15].map some := by decide +kernel

/-- Writing at one tuple of indices changes what is read at this tuple and nowhere else, and keeps the shape. -/
theorem write_read {shape : List Nat} {f : Field α} (hf : f.shape = (fill shape).2) (hl : f.field.length = shape.prod)
    (h : shape.prod < 2 ^ 64) {is : List Nat} (hi : is ∈ tuples shape) (v : α) :
    ∃ g, f.write is v = some g ∧ g.shape = f.shape ∧ g.field.length = f.field.length ∧ g.read is = some v ∧
      ∀ js ∈ tuples shape, js ≠ is → g.read js = f.read js := by
  have hm := mem_tuples.1 hi
  have hlt := place_lt hm.1 hm.2
  have off : ∀ js ∈ tuples shape, linearOffset (fill shape).2 js = some (place shape js) := by
    intro js hj
    have hm := mem_tuples.1 hj
    rw [fill_eq, linearOffset_eq shape js (Nat.le_of_eq hm.2), show place shape js % word = place shape js from
      Nat.mod_eq_of_lt (Nat.lt_trans (place_lt hm.1 hm.2) h)]
  refine ⟨{ f with field := f.field.set (place shape is) v }, ?_, rfl, by simp, ?_, ?_⟩
  · simp only [Field.write, hf, off is hi, Option.bind_some]
    exact if_pos (by omega)
  · simp only [Field.read, hf, off is hi, Option.bind_some]
    exact List.getElem?_set_self (by omega)
  · intro js hj hne
    simp only [Field.read, hf, off js hj, Option.bind_some]
    apply List.getElem?_set_ne
    intro e
    have hm' := mem_tuples.1 hj
    exact hne (place_inj hm'.1 hm'.2 hm.1 hm.2 e.symm)

example : ((create [2, 3] id).write [1, 1] 9).bind (fun g => g.read [1, 1]) = some 9 ∧ [1, 1] ∈ tuples [2, 3] := by decide +kernel

/-- Fewer indices than the shape has give the first element of the block of elements whose tuples begin with them, and the block lies together:
the remaining indices count within it. -/
theorem offset_block {shape p r : List Nat} (h : shape.prod < 2 ^ 64) (hw : Within shape (p ++ r)) :
    linearOffset (fill shape).2 (p ++ r) = (linearOffset (fill shape).2 p).map (· + place (shape.drop p.length) r) := by
  have hl := within_length hw
  rw [List.length_append] at hl
  have hp : p.length ≤ shape.length := by omega
  have hle := place_le hw
  have hap := place_append shape p r hp
  rw [fill_eq, linearOffset_eq _ _ (by simpa using hl), linearOffset_eq _ _ hp, Nat.mod_eq_of_lt (show _ < word from Nat.lt_of_le_of_lt hle h),
    Nat.mod_eq_of_lt (show place shape p < word from Nat.lt_of_le_of_lt (by omega) h), hap]
  rfl

example : linearOffset (fill [3, 4, 5]).2 [2, 1] = some 45 ∧ linearOffset (fill [3, 4, 5]).2 [2, 1, 3] = some 48 ∧ Within [3, 4, 5] [2, 1, 3] := by
  refine ⟨by decide +kernel, by decide +kernel, by simp [Within]⟩

/-- More indices than the shape has read outside the array of factors. -/
theorem offset_more (shape is : List Nat) (h : shape.length < is.length) : linearOffset (fill shape).2 is = none := by
  rw [fill_eq, linearOffset, offset_none shape is 0 0 (by omega) (by omega)]
  rfl

/-- A shape with 2^64 elements or more is accepted, has too few elements, and indices within the shape miss the elements: the number of elements
wraps. -/
theorem create_violated : (create [2 ^ 32, 2 ^ 32] (fun _ => 0)).field.length = 0 ∧ Within [2 ^ 32, 2 ^ 32] [0, 1] ∧
    (create [2 ^ 32, 2 ^ 32] (fun _ => 0)).read [0, 1] = none := by
  refine ⟨by decide +kernel, by simp [Within], by decide +kernel⟩

/-! ## Numbers and coordinates -/

/-- The coordinates of the numbers below the number of tuples, in order, are all the tuples in dictionary order. -/
theorem coord_exact (ns : List Nat) : (List.range ns.prod).map (indexToCoord · ns) = tuples ns := by
  rw [← place_tuples, List.map_map]
  conv_rhs => rw [← List.map_id (tuples ns)]
  apply List.map_congr_left
  intro is hi
  have hm := mem_tuples.1 hi
  simp [indexToCoord_eq, coords_place hm.1 hm.2]

example : (List.range 6).map (indexToCoord · [2, 3]) = [[0, 0], [0, 1], [0, 2], [1, 0], [1, 1], [1, 2]] := by decide

/-- The coordinates of a number and the offset in a field undo each other. -/
theorem coord_offset {ns : List Nat} (h : ns.prod < 2 ^ 64) : (∀ I, I < ns.prod → linearOffset (fill ns).2 (indexToCoord I ns) = some I) ∧
    ∀ is ∈ tuples ns, (linearOffset (fill ns).2 is).map (indexToCoord · ns) = some is := by
  have key : ∀ is ∈ tuples ns, linearOffset (fill ns).2 is = some (place ns is) := by
    intro is hi
    have hm := mem_tuples.1 hi
    rw [fill_eq, linearOffset_eq ns is (Nat.le_of_eq hm.2), show place ns is % word = place ns is from
      Nat.mod_eq_of_lt (Nat.lt_trans (place_lt hm.1 hm.2) h)]
  refine ⟨fun I hI => ?_, fun is hi => ?_⟩
  · have : I ∈ (tuples ns).map (place ns) := by rw [place_tuples]; exact List.mem_range.2 hI
    obtain ⟨is, hi, rfl⟩ := List.mem_map.1 this
    have hm := mem_tuples.1 hi
    rw [indexToCoord_eq, coords_place hm.1 hm.2, key is hi]
  · have hm := mem_tuples.1 hi
    rw [key is hi]
    simp [indexToCoord_eq, coords_place hm.1 hm.2]

/-! ## Tensors -/

/-- `t[i]...[k]` with as many indices as the tensor has is `t(i, ..., k)`. -/
theorem chain_exact (t : Tensor α) (i : Nat) (is : List Nat) (h : is.length + 1 = t.ns.length) :
    chain (t.get i) is = some (.inl (t.at (i :: is))) := by
  rw [Tensor.get]
  by_cases hc : t.ns.length = 1
  · have : is = [] := List.eq_nil_of_length_eq_zero (by omega)
    subst this
    rw [if_pos hc]; rfl
  · have hne : is ≠ [] := by rintro rfl; simp at h; omega
    rw [if_neg hc, chain_view _ is (by simp) (by simp; omega) hne]
    simp only [View.at, View.coord]
    rw [zipWith_zero _ _ (by omega)]
    rfl

/-- With fewer indices it is a view of the tensor for the remaining ones: `t[i]...[k](j, ...)` is `t(i, ..., k, j, ...)`, and `t[i]...[k].val(I)` is
the element at the coordinates of `I` in the remaining extents. -/
theorem chain_view_exact (t : Tensor α) (i : Nat) (p : List Nat) (h : p.length + 1 < t.ns.length) :
    ∃ v, chain (t.get i) p = some (.inr v) ∧ v.ext = t.ns.drop (p.length + 1) ∧
      (∀ c, c.length = v.ext.length → v.at c = t.at (i :: p ++ c)) ∧
      ∀ I, v.val I = t.at (i :: p ++ indexToCoord I v.ext) := by
  refine ⟨{ tensor := t, ext := t.ns.drop (p.length + 1), pre := i :: p, base := List.replicate (t.ns.length - 1 - p.length) 0 }, ?_, rfl, ?_, ?_⟩
  · rw [Tensor.get, if_neg (by omega), chain_prefix _ p (by simp) (by simp; omega)]
    have hm : min p.length (t.ns.length - 1) = p.length := by omega
    simp only [List.take_replicate, List.drop_replicate, hm, zipWith_zero _ _ (rfl : p.length = p.length), List.drop_tail]
    rfl
  · intro c hc
    simp only [View.at, View.coord]
    rw [zipWith_zero _ _ (by rw [hc]; simp; omega)]
  · intro I
    simp only [View.val, View.coord]
    rw [zipWith_zero _ _ (by rw [indexToCoord_eq, length_coords]; simp; omega)]

/-- A view with offsets (`base`) for its indices is the tensor with the offsets added, through `()` and through `[]`. -/
theorem view_exact (v : View α) (is : List Nat) (hb : v.base.length = v.ext.length) (hl : is.length = v.ext.length) (h : is ≠ []) :
    v.at is = v.tensor.at (v.pre ++ List.zipWith (· + ·) v.base is) ∧ chain (.inr v) is = some (.inl (v.at is)) :=
  ⟨rfl, chain_view v is hb hl h⟩

/-- `val` of a tensor goes through the elements in dictionary order of the indices, whatever the storage order. -/
theorem val_order (t : Tensor α) : (List.range t.ns.prod).map t.val = (tuples t.ns).map t.at := by
  rw [← coord_exact t.ns, List.map_map]
  rfl

/-- With extents not above those of the storage, and the storage order a permutation, different indices are different positions, all within the
storage. -/
theorem tensor_separate (t : Tensor α) (ho : t.orders.Perm (List.range t.ms.length)) (hl : t.ns.length = t.ms.length)
    (h : ∀ k, k < t.ns.length → t.ns.getD k 0 ≤ t.ms.getD k 0) :
    (∀ is ∈ tuples t.ns, Mat.offset t.ms t.orders is < t.ms.prod) ∧
    ((tuples t.ns).map (Mat.offset t.ms t.orders)).Nodup := by
  have hr : ∀ is ∈ tuples t.ns, Mat.InRange t.ms is := by
    intro is hi
    have hm := mem_tuples.1 hi
    refine ⟨hm.2.trans hl, fun k hk => ?_⟩
    have hw : ∀ (ns is : List Nat), Within ns is → is.length = ns.length → ∀ k, k < ns.length → is.getD k 0 < ns.getD k 0 := by
      intro ns
      induction ns with
      | nil => intro is _ _ k hk; simp at hk
      | cons n ns ih =>
        intro is hw hl k hk
        cases is with
        | nil => simp at hl
        | cons i is => cases k with
          | zero => exact hw.1
          | succ k => simpa using ih is hw.2 (by simpa using hl) k (by simpa using hk)
    exact Nat.lt_of_lt_of_le (hw _ _ hm.1 hm.2 k (by omega)) (h k (by omega))
  have hb := Mat.offset_bijective ho
  refine ⟨fun is hi => hb.1 is (hr is hi), ?_⟩
  have hnd : (tuples t.ns).Nodup := by
    have : ((tuples t.ns).map (place t.ns)).Nodup := by rw [place_tuples]; exact List.nodup_range
    exact this.of_map
  exact List.Nodup.map_on (fun is hi js hj e => hb.2.1 is js (hr is hi) (hr js hj) e) hnd

example : [1, 0].Perm (List.range [3, 4].length) ∧
    (List.range 6).map (Tensor.val { ns := [2, 3], ms := [3, 4], orders := [1, 0], data := id }) = [0, 3, 6, 1, 4, 7] := by decide

end Verif.DenseField
