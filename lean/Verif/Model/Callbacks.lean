/-
Model of `callbacks<void(Args...)>` in `include/zensim/container/Callables.hpp`.

`std::map<Id, F>` is a list of pairs with strictly increasing keys.  Identifiers are `Int`
(`i32` in the code; overflow after 2^31 insertions is not modelled).  The mutex base class only
serialises whole calls and is left out.
-/
namespace Verif.Callbacks

abbrev Map (F : Type) := List (Int × F)

/-- `std::map::emplace(k, f)`: inserts unless the key is present. -/
def emplace {F} (k : Int) (f : F) : Map F → Map F
  | [] => [(k, f)]
  | (a, g) :: m =>
    if k < a then (k, f) :: (a, g) :: m
    else if k = a then (a, g) :: m
    else (a, g) :: emplace k f m

/-- `std::map::insert_or_assign(k, f)`. -/
def insertOrAssign {F} (k : Int) (f : F) : Map F → Map F
  | [] => [(k, f)]
  | (a, g) :: m =>
    if k < a then (k, f) :: (a, g) :: m
    else if k = a then (a, f) :: m
    else (a, g) :: insertOrAssign k f m

/-- `std::map::erase(k)`. -/
def eraseKey {F} (k : Int) : Map F → Map F
  | [] => []
  | (a, g) :: m => if k = a then m else (a, g) :: eraseKey k m

/-- data members; lines 81-82 -/
structure CB (F : Type) where
  funcs : Map F
  n : Int

/-- `callbacks()`; line 24. -/
def init {F} : CB F := ⟨[], 0⟩

/-- `insert(f)`; lines 41-48: returns the identifier. -/
def insert {F} (f : F) (c : CB F) : Int × CB F :=
  let ret := c.n
  (ret, ⟨emplace ret f c.funcs, c.n + 1⟩)

/-- `assign(id, f)`; lines 55-60. -/
def assign {F} (id : Int) (f : F) (c : CB F) : CB F := ⟨insertOrAssign id f c.funcs, c.n⟩

/-- `erase(i)`; lines 62-66. -/
def erase {F} (i : Int) (c : CB F) : CB F := ⟨eraseKey i c.funcs, c.n⟩

/-- `clear()`; lines 67-71. -/
def clear {F} (c : CB F) : CB F := ⟨[], c.n⟩

/-- `operator=(F&&)`; lines 49-54. -/
def assignFn {F} (f : F) (c : CB F) : CB F := (insert f (clear c)).2

/-- `operator bool`; line 73. -/
def nonEmpty {F} (c : CB F) : Bool := c.funcs.length ≠ 0

/-- `operator()`; lines 74-78: the callables in the order they are run. -/
def call {F} (c : CB F) : List F := c.funcs.map (·.2)

/-- client operations that change the registry -/
inductive Op (F : Type) where
  | insert (f : F)
  | assign (id : Int) (f : F)
  | erase (id : Int)
  | clear
  | assignFn (f : F)

def step {F} (c : CB F) : Op F → CB F
  | .insert f => (insert f c).2
  | .assign id f => assign id f c
  | .erase id => erase id c
  | .clear => clear c
  | .assignFn f => assignFn f c

end Verif.Callbacks
