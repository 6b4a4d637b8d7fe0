import Verif.Model.SmallMat

/-!
Model of fields and tensors with several indices: `include/zensim/container/DenseField.hpp` ("D"), `index_to_coord` of
`include/zensim/ZpcTuple.hpp` ("T"), `include/zensim/math/Tensor.hpp` ("N") and `scan` of `include/zensim/ZpcFunctional.hpp` ("F").

`size_t` is a number below 2^64 and its products and sums wrap.  Reading outside an array is `none`.  The elements that an allocation leaves
unspecified are given by a function.  Not modelled: memory spaces, copies and moves of the field, the out-of-bounds messages.
-/
namespace Verif.DenseField

/-- The number of values of `size_t`. -/
def word : Nat := 2 ^ 64

/-- `shape_size`, D lines 37-41. -/
def shapeSize (shape : List Nat) : Nat := shape.foldl (fun sz d => sz * d % word) 1

/-- One round of the loop over the shape from the back: `base` and the part of `_shape` from `i` on, D lines 47-50 and 218-221. -/
def fillStep (d : Nat) (s : Nat × List Nat) : Nat × List Nat := (s.1 * d % word, (s.1 * d % word) :: s.2)

/-- The loop over the shape from the back, D lines 45-50 and 216-221. -/
def fill (shape : List Nat) : Nat × List Nat := shape.foldr fillStep (1, [1])

/-- `DenseField`, D lines 229-230. -/
structure Field (α : Type) where
  field : List α
  shape : List Nat

variable {α : Type}

/-- The constructor, D lines 43-53. -/
def create (shape : List Nat) (junk : Nat → α) : Field α :=
  { field := (List.range (shapeSize shape)).map junk, shape := (fill shape).2 }

/-- `resize` of the vector: the elements in front stay (see `Verif.Model.Vector`). -/
def resize (a : List α) (n : Nat) (junk : Nat → α) : List α := (List.range n).map fun i => a.getD i (junk i)

/-- `reshape`, D lines 214-227. -/
def reshape (f : Field α) (shape : List Nat) (junk : Nat → α) : Field α :=
  { field := resize f.field (fill shape).1 junk, shape := (fill shape).2 }

/-- `dims`, D line 121. -/
def Field.dims (f : Field α) : Nat := f.shape.length - 1

/-- `offset += (size_type)is * bases[++i]`, D lines 156 and 301. -/
def offsetStep (bases : List Nat) (s : Nat × Nat) (x : Nat) : Option (Nat × Nat) :=
  bases[s.2 + 1]?.map fun b => ((s.1 + x * b) % word, s.2 + 1)

/-- `linearOffset`, D lines 147-158 and 292-303. -/
def linearOffset (bases is : List Nat) : Option Nat :=
  (is.foldlM (offsetStep bases) (0, 0)).map Prod.fst

/-- `operator()` for reading, D lines 166-170 and 311-314. -/
def Field.read (f : Field α) (is : List Nat) : Option α := (linearOffset f.shape is).bind fun o => f.field[o]?

/-- `f(is...) = v`, D lines 161-164 and 306-309. -/
def Field.write (f : Field α) (is : List Nat) (v : α) : Option (Field α) :=
  (linearOffset f.shape is).bind fun o => if o < f.field.length then some { f with field := f.field.set o v } else none

/-! ## index_to_coord -/

/-- `scan<2>(multiplies)`: the exclusive product from behind, F lines 537-538, T line 387. -/
def exsuf (ns : List Nat) (i : Nat) : Nat :=
  ((List.range ns.length).map fun j => if j > i then ns.getD j 0 else 1).prod

/-- One round of the loop, T lines 391-392: the rest of the number and the coordinates found. -/
def coordStep (ns : List Nat) (s : Nat × List Nat) (i : Nat) : Nat × List Nat :=
  (s.1 - exsuf ns i * (s.1 / exsuf ns i), s.2 ++ [s.1 / exsuf ns i])

/-- `index_to_coord`, T lines 382-395. The numbers are small enough for their types. -/
def indexToCoord (I : Nat) (ns : List Nat) : List Nat := ((List.range ns.length).foldl (coordStep ns) (I, [])).2

/-! ## Tensors -/

/-- `tensor_impl`, N lines 109-129 and 197: the extents for access, those for storage, the storage order and the data. -/
structure Tensor (α : Type) where
  ns : List Nat
  ms : List Nat
  orders : List Nat
  data : Nat → α

/-- `operator()` of a tensor, N lines 162-169; `val` of a tuple (`VecInterface.hpp` lines 264-272) is the same. -/
def Tensor.at (t : Tensor α) (is : List Nat) : α := t.data (Mat.offset t.ms t.orders is)

/-- `do_val` of a tensor, N lines 190-195. -/
def Tensor.val (t : Tensor α) (I : Nat) : α := t.data (Mat.offset t.ms t.orders (indexToCoord I t.ns))

/-- `tensor_view`, N lines 11-43 and 101-103. -/
structure View (α : Type) where
  tensor : Tensor α
  ext : List Nat
  pre : List Nat
  base : List Nat

/-- `getTensorCoord`, N lines 47-50. -/
def View.coord (v : View α) (c : List Nat) : List Nat := v.pre ++ List.zipWith (· + ·) v.base c

/-- `operator()` of a view, N lines 57-65. -/
def View.at (v : View α) (c : List Nat) : α := v.tensor.at (v.coord c)

/-- `do_val` of a view, N lines 91-99. -/
def View.val (v : View α) (I : Nat) : α := v.tensor.at (v.coord (indexToCoord I v.ext))

/-- `operator[]` of a view, N lines 68-88: an element if one index is left, a view of one less otherwise. -/
def View.get (v : View α) (i : Nat) : α ⊕ View α :=
  if v.ext.length = 1 then .inl (v.tensor.at (v.coord [i]))
  else .inr { tensor := v.tensor, ext := v.ext.tail, pre := v.pre ++ [i + v.base.getD 0 0], base := v.base.tail }

/-- `operator[]` of a tensor, N lines 172-188. -/
def Tensor.get (t : Tensor α) (i : Nat) : α ⊕ View α :=
  if t.ns.length = 1 then .inl (t.data (Mat.offset t.ms t.orders [i]))
  else .inr { tensor := t, ext := t.ns.tail, pre := [i], base := List.replicate (t.ns.length - 1) 0 }

/-- `x[i]...[k]` for what an `operator[]` has given; an element takes no further index. -/
def chain (x : α ⊕ View α) : List Nat → Option (α ⊕ View α)
  | [] => some x
  | i :: is => match x with
    | .inl _ => none
    | .inr v => chain (v.get i) is

end Verif.DenseField
