/-!
The search for the template argument in the name of a function, `/repo/include/zensim/ZpcReflection.hpp`.

A string is the list of its characters before the terminating zero; a read behind the zero is `none`. Loops have fuel, which is never used up
(`Props/TypeName.lean` has results for all strings).
-/
namespace Verif.TypeName

/-- `*p` at a position: the character, `none` inside for the terminating zero, `none` outside for a read behind it. -/
def read (s : List Char) (k : Nat) : Option (Option Char) :=
  if k < s.length then some s[k]? else if k = s.length then some none else none

/-- The first loop of `locate_char_in_str_helper`, lines 46-48. -/
def goL (s : List Char) (lc : Char) : Nat → Nat → Option Nat
  | 0, _ => none
  | n + 1, l =>
    match read s l with
    | none => none
    | some none => some l
    | some (some c) => if c = lc then some l else goL s lc n (l + 1)

/-- The second loop, lines 49-56; `r` and `p` are the same position. -/
def goR (s : List Char) (lc rc : Char) : Nat → Nat → Nat → Option Nat
  | 0, _, _ => none
  | n + 1, r, cnt =>
    match read s r with
    | none => none
    | some none => some r
    | some (some c) =>
      let cnt' := if c = lc then cnt + 1 else if c = rc then cnt - 1 else cnt
      if cnt' = 0 then some r else goR s lc rc n (r + 1) cnt'

/-- `locate_char_in_str_helper`, lines 42-59. -/
def locate (s : List Char) (lc rc : Char) : Option (Nat × Nat) :=
  if s = [] then some (0, 0)
  else do
    let l ← goL s lc (s.length + 1) 0
    let r ← goR s lc rc (s.length + 1) (l + 1) 1
    pure (l, r)

/-- The copy at the end of `get_type`, lines 98-103: the characters from `head` up to `ed`; `none` where `ed - head` is negative or a read is
outside of the string. -/
def slice (s : List Char) (head ed : Nat) : Option (List Char) :=
  if head ≤ ed ∧ ed ≤ s.length then some ((s.drop head).take (ed - head)) else none

/-- `get_type` with the search for brackets, lines 76-78. -/
def nameBrackets (s : List Char) : Option (List Char) := do
  let p ← locate s '<' '>'
  slice s (p.1 + 1) p.2

/-- `get_type` with a fixed start, lines 80-90; `typelength` counts the terminating zero. -/
def nameFixed (head : Nat) (s : List Char) : Option (List Char) :=
  if 2 ≤ s.length + 1 then slice s head (s.length + 1 - 2) else none

/-- The start for clang, line 86. -/
def headClang : Nat := 44

/-- The start for gcc, line 89. -/
def headGcc : Nat := 59

end Verif.TypeName
