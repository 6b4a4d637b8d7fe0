/-
Model of `bit_mask<Size>` in `include/zensim/types/Mask.hpp` (64-bit words) and of the host
versions of `count_ones`, `count_tailing_zeros` and `reverse_bits` in
`include/zensim/execution/Intrinsics.hpp`.

The `words` array is a list of 64-bit vectors, pointer walks over it are structural recursions over
that list.  Positions are natural numbers (the code takes `int`; negative positions are outside the
documented domain).  A word access outside the array gives `none`.
-/
namespace Verif.BitMask

abbrev W := BitVec 64

/-- `word_count`; Mask.hpp line 21. -/
def wordCount (size : Nat) : Nat := (size + 64 - 1) / 64

/-- `count_ones` for 8-byte words (`__builtin_popcountll`); Intrinsics.hpp lines 487-523: the
builtin is modelled by its documented meaning, the number of one bits. -/
def countOnes (w : W) : Nat := (List.range 64).countP w.getLsbD

/-- `count_tailing_zeros` for 8-byte words (`__builtin_ctzl`); Intrinsics.hpp lines 524-571:
zero gives the width, otherwise the builtin, modelled by its documented meaning. -/
def countTailingZeros (w : W) : Nat :=
  if w = 0 then 64 else ((List.range 64).find? w.getLsbD).getD 0

/-- `operator==`; lines 36-41: words compared in step until the first difference. -/
def eq : List W → List W → Bool
  | [], _ => true
  | a :: as, b :: bs => if a = b then eq as bs else false
  | _ :: _, [] => false

/-- `operator&=`; lines 46-51. -/
def and : List W → List W → List W
  | a :: as, b :: bs => (a &&& b) :: and as bs
  | as, _ => as

/-- `operator|=`; lines 53-58. -/
def or : List W → List W → List W
  | a :: as, b :: bs => (a ||| b) :: or as bs
  | as, _ => as

/-- `operator-=`; lines 60-65. -/
def diff : List W → List W → List W
  | a :: as, b :: bs => (a &&& ~~~b) :: diff as bs
  | as, _ => as

/-- `operator^=`; lines 67-72. -/
def xor : List W → List W → List W
  | a :: as, b :: bs => (a ^^^ b) :: xor as bs
  | as, _ => as

/-- `countOn`; lines 97-102. -/
def countOn : List W → Nat
  | [] => 0
  | w :: ws => countOnes w + countOn ws

/-- the loop of `countOffset`: walk over `n` words, then the masked last word; lines 107-109. -/
def countOffsetLoop (m : Nat) : Nat → List W → Option Nat
  | 0, w :: _ => some (countOnes (w &&& ((1 : W) <<< m - 1)))
  | n + 1, w :: ws => (countOffsetLoop m n ws).map (countOnes w + ·)
  | _, [] => none

/-- `countOffset(k)`; lines 104-111. -/
def countOffset (ws : List W) (k : Nat) : Option Nat := countOffsetLoop (k &&& 63) (k >>> 6) ws

/-- `countOff`; lines 113-116. -/
def countOff (size : Nat) (ws : List W) : Int := size - countOn ws

/-- apply a word update in place -/
def modWord (ws : List W) (i : Nat) (f : W → W) : Option (List W) :=
  (ws[i]?).map fun w => ws.set i (f w)

/-- `setOn(n)`; lines 118-123. -/
def setOn (ws : List W) (n : Nat) : Option (List W) :=
  modWord ws (n >>> 6) (· ||| (1 : W) <<< (n &&& 63))

/-- `setOff(n)`; lines 133-138. -/
def setOff (ws : List W) (n : Nat) : Option (List W) :=
  modWord ws (n >>> 6) (· &&& ~~~((1 : W) <<< (n &&& 63)))

/-- `toggle(n)`; lines 166-172. -/
def toggle (ws : List W) (n : Nat) : Option (List W) :=
  modWord ws (n >>> 6) (· ^^^ (1 : W) <<< (n &&& 63))

/-- `setOn()` (all bits); lines 156-159 (and the constructor from `true`, line 30). -/
def setOnAll (size : Nat) : List W := List.replicate (wordCount size) (~~~0)

/-- `setOff()` (all bits); lines 161-164 (and the default constructor, line 29). -/
def setOffAll (size : Nat) : List W := List.replicate (wordCount size) 0

/-- `toggle()`; lines 174-177, also `operator!`; lines 73-77. -/
def toggleAll (ws : List W) : List W := ws.map (~~~ ·)

/-- `isOn(n)`; lines 187-192. -/
def isOn (ws : List W) (n : Nat) : Option Bool :=
  (ws[n >>> 6]?).map fun w => (w &&& (1 : W) <<< (n &&& 63)) ≠ 0

/-- `isOn()` (all bits); lines 196-201. -/
def isOnAll : List W → Bool
  | [] => true
  | w :: ws => if w = ~~~0 then isOnAll ws else false

/-- `isOff()` (all bits); lines 203-208. -/
def isOffAll : List W → Bool
  | [] => true
  | w :: ws => if w = 0 then isOffAll ws else false

/-- `findFirstOn`; lines 219-226 (`n` is the word index reached so far). -/
def findFirstOn (size : Nat) : List W → Nat → Nat
  | [], _ => size
  | w :: ws, n => if w = 0 then findFirstOn size ws (n + 1) else (n <<< 6) + countTailingZeros w

/-- `findFirstOff`; lines 227-234. -/
def findFirstOff (size : Nat) : List W → Nat → Nat
  | [], _ => size
  | w :: ws, n =>
    if ~~~w = 0 then findFirstOff size ws (n + 1) else (n <<< 6) + countTailingZeros (~~~w)

/-- `while (!b && ++n < word_count) b = words[n];` and the return; lines 262-264.  `rest` are the
words after position `n`. -/
def nextOnLoop (size : Nat) : W → Nat → List W → Nat
  | b, n, [] => if b = 0 then size else (n <<< 6) + countTailingZeros b
  | b, n, w :: rest =>
    if b = 0 then nextOnLoop size w (n + 1) rest else (n <<< 6) + countTailingZeros b

/-- `findNextOn(start)`; lines 254-265. -/
def findNextOn (size : Nat) (ws : List W) (start : Nat) : Nat :=
  let n := start >>> 6
  match ws.drop n with
  | [] => size
  | b :: rest =>
    let m := start &&& 63
    if b &&& (1 : W) <<< m ≠ 0 then start
    else nextOnLoop size (b &&& (~~~(0 : W)) <<< m) n rest

/-- The loop of `findNextOff`; lines 275-277. -/
def nextOffLoop (size : Nat) : W → Nat → List W → Nat
  | b, n, [] => if b = 0 then size else (n <<< 6) + countTailingZeros b
  | b, n, w :: rest =>
    if b = 0 then nextOffLoop size (~~~w) (n + 1) rest else (n <<< 6) + countTailingZeros b

/-- `findNextOff(start)`; lines 267-278. -/
def findNextOff (size : Nat) (ws : List W) (start : Nat) : Nat :=
  let n := start >>> 6
  match ws.drop n with
  | [] => size
  | w :: rest =>
    let b := ~~~w
    let m := start &&& 63
    if b &&& (1 : W) <<< m ≠ 0 then start
    else nextOffLoop size (b &&& (~~~(0 : W)) <<< m) n rest

/-- The 64-bit software fallback of `count_tailing_zeros` (De Bruijn multiplication);
Intrinsics.hpp lines 558-566. -/
def deBruijn64 : List Nat :=
  [0,  1,  2,  53, 3,  7,  54, 27, 4,  38, 41, 8,  34, 55, 48, 28, 62, 5,  39, 46, 44, 42,
   22, 9,  24, 35, 59, 56, 49, 18, 29, 11, 63, 52, 6,  26, 37, 40, 33, 47, 61, 45, 43, 21,
   23, 58, 17, 10, 51, 25, 36, 32, 60, 20, 57, 16, 50, 31, 19, 15, 30, 14, 13, 12]

def ctzSoft64 (x : BitVec 64) : Option Nat :=
  if x = 0 then some 64
  else deBruijn64[(((x &&& -x) * 0x022FDD63CC95386D#64) >>> 58).toNat]?

/-- The 32-bit software fallback; Intrinsics.hpp lines 553-557. -/
def deBruijn32 : List Nat :=
  [0,  1,  28, 2,  29, 14, 24, 3, 30, 22, 20, 15, 25, 17, 4,  8,
   31, 27, 13, 23, 21, 19, 16, 7, 26, 12, 18, 6,  11, 5,  10, 9]

def ctzSoft32 (x : BitVec 32) : Option Nat :=
  if x = 0 then some 32
  else deBruijn32[(((x &&& -x) * 0x077CB531#32) >>> 27).toNat]?

/-- The 8-bit software fallback; Intrinsics.hpp lines 549-552 (the `u8` conversion of the product
keeps its low 8 bits). -/
def deBruijn8 : List Nat := [0, 1, 6, 2, 7, 5, 4, 3]

def ctzSoft8 (x : BitVec 8) : Option Nat :=
  if x = 0 then some 8
  else deBruijn8[(((x &&& -x) * 0x1D#8) >>> 5).toNat]?

/-- Host `reverse_bits` compiled with gcc/clang for a type of `8 * nbytes` bits; Intrinsics.hpp
lines 383-415.  For 2, 4 and 8 bytes the selected `if constexpr` branch only assigns `tmp` and
control flows off the end of the non-void function: undefined behaviour (`none`).  Otherwise the
`else` branch runs with `tmp == 0`, so its loop body is never entered and `ret == 0` is returned. -/
def reverseBits (nbytes : Nat) (x : BitVec (8 * nbytes)) : Option (BitVec (8 * nbytes)) :=
  if x = 0 then some 0
  else if nbytes = 2 ∨ nbytes = 4 ∨ nbytes = 8 then none
  else some 0

end Verif.BitMask
