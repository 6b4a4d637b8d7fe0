/-
Model of `BasicSmallString` in `include/zensim/types/SmallVector.hpp`.

Characters are natural numbers with `0` the NUL character.  Memory blocks (the `buf` array and the
array a `const char*` points to) are lists; any access outside a block gives `none` (undefined
behaviour), and so does a loop that does not finish within its fuel.
-/
namespace Verif.SmallString

/-- Array store with bounds check. -/
def wr (b : List Nat) (i : Nat) (c : Nat) : Option (List Nat) :=
  if i < b.length then some (b.set i c) else none

/-- The copying loop `for (; i + 1 != nbytes && src[j]; ++i, ++j) buf[i] = src[j];` shared by the
constructor (lines 27-28, where `j` is `i`) and both loops of `operator+` (lines 77-78).  Returns
the buffer and the final `i`. -/
def copyLoop (n : Nat) (src : List Nat) : Nat → Nat → Nat → List Nat → Option (List Nat × Nat)
  | 0, _, _, _ => none
  | f + 1, i, j, buf =>
    if i + 1 = n then some (buf, i)
    else do
      let c ← src[j]?
      if c = 0 then some (buf, i)
      else
        let buf ← wr buf i c
        copyLoop n src f (i + 1) (j + 1) buf

/-- `BasicSmallString(const char_type *tmp)`; lines 25-35. -/
def ofChars (n : Nat) (tmp : List Nat) : Option (List Nat) := do
  let (buf, i) ← copyLoop n tmp (n + 1) 0 0 (List.replicate n 0)
  wr buf i 0

/-- The loop of the sized-string constructor; line 42. -/
def sizedLoop (n : Nat) (str : List Nat) : Nat → Nat → List Nat → Option (List Nat)
  | 0, _, _ => none
  | f + 1, i, buf =>
    if i = n then some buf
    else do
      let c ← str[i]?
      let buf ← wr buf i c
      sizedLoop n str f (i + 1) buf

/-- `BasicSmallString(const StrT &str)`; lines 36-49.  `junk` is the content of the uninitialised
buffer, `str` the characters `str[0..str.size())`. -/
def ofSized (nbytes : Nat) (junk : List Nat) (str : List Nat) : Option (List Nat) := do
  let n := if str.length < nbytes then str.length else nbytes - 1
  let buf ← wr junk n 0
  sizedLoop n str (n + 1) 0 buf

/-- `size()`; lines 68-72. -/
def sizeLoop (buf : List Nat) : Nat → Nat → Option Nat
  | 0, _ => none
  | f + 1, i => do
    let c ← buf[i]?
    if c = 0 then some i else sizeLoop buf f (i + 1)

def size (buf : List Nat) : Option Nat := sizeLoop buf (buf.length + 1) 0

/-- The loop and final test of `operator==(const char_type str[])`; lines 58-62. -/
def eqLoop (buf str : List Nat) (sz : Nat) : Nat → Nat → Option Bool
  | 0, _ => none
  | f + 1, i =>
    let fin : Option Bool := do
      let a ← buf[i]?
      if a ≠ 0 then return false
      let b ← str[i]?
      return b = 0
    if i = sz then fin
    else do
      let b ← str[i]?
      if b = 0 then fin
      else
        let a ← buf[i]?
        if a ≠ b then return false
        eqLoop buf str sz f (i + 1)

/-- `operator==(const char_type str[])`; lines 57-63. -/
def eqChars (buf str : List Nat) : Option Bool := do
  let sz ← size buf
  eqLoop buf str sz (sz + 1) 0

/-- `operator+`; lines 73-87 (the default constructor, lines 22-24, zero-fills the buffer). -/
def plus (n : Nat) (a b : List Nat) : Option (List Nat) := do
  let (r, i) ← copyLoop n a (n + 1) 0 0 (List.replicate n 0)
  let (r, i) ← copyLoop n b (n + 1) i 0 r
  wr r i 0

end Verif.SmallString
