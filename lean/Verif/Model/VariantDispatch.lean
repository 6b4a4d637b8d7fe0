/-!
Model of `VariantTaskExecutor`, `include/zensim/types/Polymorphism.h`, lines 41-109: the call of a visitor with the alternatives that some variants hold.

The variants are given by their numbers of alternatives (`sizes`) and by the indices of the alternatives that they hold (`cur`); an index that is not smaller than the
number of alternatives stands for a variant without value.  `callable` is `CheckCallable` (lines 47-57), which depends on the alternatives only.
A call of the visitor is recorded by the indices it is called with.
-/
namespace Verif.VariantDispatch

/-- `traverse`, lines 59-90: the list of calls; `tagMatch` is set together with the first call, so it holds exactly if the list is not empty.
`No` is the first template argument, `I :: Js` the last index sequence. -/
def traverse (callable : List Nat → Bool) (sizes cur : List Nat) : (No I : Nat) → (Js : List Nat) → List (List Nat)
  | 0, I, Js =>
    if callable (I :: Js) && ((I :: Js) == cur) then [I :: Js]
    else match I with
      | 0 => []
      | I' + 1 => traverse callable sizes cur 0 I' Js
  | No + 1, I, Js =>
    let calls := traverse callable sizes cur No (sizes.getD No 0 - 1) (I :: Js)
    if !calls.isEmpty then calls
    else match I with
      | 0 => calls
      | I' + 1 => calls ++ traverse callable sizes cur (No + 1) I' Js

/-- `operator()`, lines 96-108, with at least one variant. -/
def dispatch (callable : List Nat → Bool) (sizes cur : List Nat) : List (List Nat) :=
  traverse callable sizes cur (sizes.length - 1) (sizes.getD (sizes.length - 1) 0 - 1) []

end Verif.VariantDispatch
