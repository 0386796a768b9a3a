import Verif.Basic

/-!
# Text helpers (model)

Models the parsing and string helpers of `/repo/include/lstk/lstk.hpp`. Texts are lists of
characters; a `char` holding an integer `v` is the character with code `v mod 256`.
-/

namespace Verif

abbrev Str := List Char

/-- Loop of `split_on(std::string_view, char)`, lstk.hpp:84-93. `rest` is the text from `accum_end` on,
`cur` the text between `accum_begin` and `accum_end`, `moved` tells whether `accum_begin > s.begin()`,
`prev` is `*(accum_end-1)`. Ends with lines 95-101. -/
def splitLoop (d : Char) : (rest cur : Str) → (moved : Bool) → (prev : Option Char) → List Str → List Str
  | [], cur, moved, prev, ret =>
    if cur ≠ [] then ret ++ [cur]
    else if moved ∧ prev = some d then ret ++ [[]]
    else ret
  | c :: rest, cur, moved, prev, ret =>
    if c = d then splitLoop d rest [] true (some c) (ret ++ [cur])
    else splitLoop d rest (cur ++ [c]) moved (some c) ret

/-- lstk.hpp:72-102 `split_on(std::string_view, char)`. -/
def splitOn (s : Str) (d : Char) : List Str := splitLoop d s [] false none []

/-- `std::equal(delim.begin(), delim.end(), p)` where `rest` is the text from `p` to the end of the
view: comparing past the end of the view is undefined. -/
def equalAt : (delim rest : Str) → Outcome Bool
  | [], _ => .ok true
  | _ :: _, [] => .ub
  | a :: as, b :: bs => if a = b then equalAt as bs else .ok false

/-- lstk.hpp:116-131, the loop and the tail of `split_on(std::string_view, std::string_view)`. Each
iteration consumes text except for an empty delimiter, which loops forever (`none`). -/
def splitStrLoop (d : Str) : (fuel : Nat) → (rest cur : Str) → (moved : Bool) → List Str → Option (Outcome (List Str))
  | 0, _, _, _, _ => none
  | _ + 1, [], cur, moved, ret =>
    if cur ≠ [] then some (.ok (ret ++ [cur]))
    else if moved then
      some (do
        let e ← equalAt d []
        .ok (if e then ret ++ [[]] else ret))
    else some (.ok ret)
  | n + 1, c :: rest, cur, moved, ret =>
    match equalAt d (c :: rest) with
    | .ub => some .ub
    | .throws => some .throws
    | .ok true => splitStrLoop d n ((c :: rest).drop d.length) [] (moved || decide (d ≠ [])) (ret ++ [cur])
    | .ok false => splitStrLoop d n rest (cur ++ [c]) moved ret

/-- lstk.hpp:104-134 `split_on(std::string_view, std::string_view)`. -/
def splitOnStr (s d : Str) : Option (Outcome (List Str)) := splitStrLoop d (s.length + 1) s [] false []

/-- lstk.hpp:155-158 `contains`. -/
def strContains (s : Str) (t : Char) : Bool := s.any (· == t)

/-- lstk.hpp:146-153 `split_on_first`. -/
def splitOnFirst (s : Str) (d : Char) : Outcome (Str × Str) :=
  if strContains s d then .ok (s.takeWhile (· ≠ d), (s.dropWhile (· ≠ d)).drop 1) else .throws

/-- `std::isspace` in the "C" locale. -/
def isSpace (c : Char) : Bool := c = ' ' ∨ c = '\t' ∨ c = '\n' ∨ c = '\x0b' ∨ c = '\x0c' ∨ c = '\r'

/-- lstk.hpp:162-166 `ltrim`. -/
def ltrim (s : Str) : Str := s.dropWhile isSpace

/-- lstk.hpp:170-174 `rtrim`. -/
def rtrim (s : Str) : Str := (s.reverse.dropWhile isSpace).reverse

/-- lstk.hpp:213-218: the loop of `str_replace`. -/
def replaceLoop (t : Char) (w : Str) : (fuel : Nat) → (s out : Str) → Str
  | 0, _, out => out
  | n + 1, s, out =>
    if strContains s t then
      replaceLoop t w n ((s.dropWhile (· ≠ t)).drop 1) (out ++ s.takeWhile (· ≠ t) ++ w)
    else out

/-- lstk.hpp:209-220 `str_replace`. Every iteration shortens the text, so its length bounds them. -/
def strReplace (s : Str) (t : Char) (w : Str) : Str :=
  if ¬ strContains s t then s else replaceLoop t w (s.length + 1) s []

/-- lstk.hpp:254-266 `join` over strings. -/
def joinStr (xs : List Str) (sep : Str) : Str :=
  match xs with
  | [] => []
  | x :: xs => xs.foldl (fun acc v => acc ++ sep ++ v) x

/-- Decimal digit. -/
def digitChar (n : Nat) : Char := Char.ofNat (48 + n)

/-- Decimal digits with a recursion bound. -/
def digitsAux : Nat → Nat → Str
  | 0, _ => []
  | f + 1, n => if n < 10 then [digitChar n] else digitsAux f (n / 10) ++ [digitChar (n % 10)]

/-- `std::to_string` / stream output of an unsigned integer. -/
def showNat (n : Nat) : Str := digitsAux (n + 1) n

/-- Output of a signed integer. -/
def showInt (z : Int) : Str := if z < 0 then '-' :: showNat z.natAbs else showNat z.natAbs

/-- lstk.hpp:254-266 `join` over unsigned integers: for the first element `acc = v` assigns one `char`
to the string, later ones go through `cat` (`std::to_string`). -/
def joinNat (xs : List Nat) (sep : Str) : Str :=
  match xs with
  | [] => []
  | x :: xs => xs.foldl (fun acc v => acc ++ sep ++ showNat v) [Char.ofNat (x % 256)]

/-- lstk.hpp:230-236 `queue_pop`: `front()` of an empty queue is undefined. -/
def queuePop {α : Type} : List α → Outcome (α × List α)
  | [] => .ub
  | x :: xs => .ok (x, xs)

/-! ## `std::from_chars` for `int` -/

/-- `'0' ≤ c ≤ '9'`. -/
def isDigit (c : Char) : Bool := 48 ≤ c.toNat ∧ c.toNat ≤ 57

/-- Value of a digit string read left to right, continuing from `acc`; stops at the first non-digit. -/
def readDigits (acc : Nat) : Str → Nat
  | [] => acc
  | c :: cs => if isDigit c then readDigits (acc * 10 + (c.toNat - 48)) cs else acc

/-- `std::from_chars(first, last, int&)`: optional minus sign, at least one digit, value within `int`;
trailing characters are ignored. `throws` stands for a reported error (`ec` set). -/
def fromCharsInt (s : Str) : Outcome Int :=
  let (neg, ds) := match s with
    | '-' :: t => (true, t)
    | t => (false, t)
  match ds with
  | [] => .throws
  | c :: _ =>
    if isDigit c then
      let v := readDigits 0 ds
      if neg then (if v ≤ 2 ^ 31 then .ok (-(v : Int)) else .throws)
      else (if v < 2 ^ 31 then .ok (v : Int) else .throws)
    else .throws

end Verif
