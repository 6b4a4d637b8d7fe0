import Verif.Model.TypeName

/-!
Brackets.
-/
namespace Verif.TypeName

/-- How many brackets more are opened than closed. -/
def depth (lc rc : Char) (s : List Char) : Int := (s.count lc : Int) - s.count rc

/-- No bracket is closed that is not opened before. -/
def Proper (lc rc : Char) (s : List Char) : Prop := ∀ a b, s = a ++ b → 0 ≤ depth lc rc a

end Verif.TypeName
