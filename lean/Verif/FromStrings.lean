import Verif.Lstk

/-!
# The interface by strings (model)

Models `run_slicer_program_from_strings` (`/repo/src/pipelines/slicer.cpp:696-728`), which the bindings for web pages
(`/repo/src/emscripten_bindings.cpp:8`) offer, the command line the package for web pages
makes (`/repo/npm/src/index.ts:48-57`), and of the JSON library (nlohmann) the writing of strings by `dump(3)`.

Simplifications: the program that is run (slicer.cpp:106-692) is a parameter, as the reader of its command line is a library that is not part of the
repository; texts are lists of bytes (characters with codes below 256).
-/

namespace Verif.FromStrings

/-- How a run of the program ends: it returns an exit code, or throws an exception derived from `std::exception`. -/
inductive Ended where
  | returned (code : Int)
  | exception (what : Str)

/-- A run: what has been written to the two streams, and how it ended. -/
structure Run where
  output : Str
  err : Str
  ended : Ended

/-- The program: arguments without the name of the program, and the text of the standard input. `throws` is an exception that is not derived from
`std::exception`. -/
abbrev Prog := List Str → Str → Outcome Run

/-- A `const char*` made by `c_str()` ends at the first null character (slicer.cpp:704). -/
def cStr (s : Str) : Str := s.takeWhile (· ≠ '\x00')

/-- slicer.cpp:698-705. -/
def arguments (command : Str) : List Str := (splitOn command ' ').map cStr

/-- A digit of a hexadecimal number. -/
def hexDigit (n : Nat) : Char := if n < 10 then Char.ofNat (48 + n) else Char.ofNat (87 + n)

/-- `dump` writes a character below 128. -/
def escapeAscii (c : Char) : Str :=
  if c = '\x08' then "\\b".toList
  else if c = '\t' then "\\t".toList
  else if c = '\n' then "\\n".toList
  else if c = '\x0c' then "\\f".toList
  else if c = '\r' then "\\r".toList
  else if c = '"' then "\\\"".toList
  else if c = '\\' then "\\\\".toList
  else if c.toNat < 32 then "\\u00".toList ++ [hexDigit (c.toNat / 16), hexDigit (c.toNat % 16)]
  else [c]

def within (lo hi : Nat) (c : Char) : Bool := decide (lo ≤ c.toNat ∧ c.toNat ≤ hi)

/-- Are these two bytes a character in UTF-8 (table of the decoder of the JSON library, after Hoehrmann)? -/
def two (a b : Char) : Bool := within 0xC2 0xDF a && within 0x80 0xBF b

def three (a b c : Char) : Bool :=
  within 0x80 0xBF c &&
    (within 0xE0 0xE0 a && within 0xA0 0xBF b || within 0xE1 0xEC a && within 0x80 0xBF b || within 0xED 0xED a && within 0x80 0x9F b ||
      within 0xEE 0xEF a && within 0x80 0xBF b)

def four (a b c d : Char) : Bool :=
  within 0x80 0xBF c && within 0x80 0xBF d &&
    (within 0xF0 0xF0 a && within 0x90 0xBF b || within 0xF1 0xF3 a && within 0x80 0xBF b || within 0xF4 0xF4 a && within 0x80 0x8F b)

/-- `dump` writes the characters of a string; it throws at anything that is not UTF-8. -/
def escape : Str → Outcome Str
  | [] => .ok []
  | a :: l =>
    if a.toNat < 128 then do
      let r ← escape l
      .ok (escapeAscii a ++ r)
    else match l with
      | [] => .throws
      | b :: l =>
        if two a b then do
          let r ← escape l
          .ok (a :: b :: r)
        else match l with
          | [] => .throws
          | c :: l =>
            if three a b c then do
              let r ← escape l
              .ok (a :: b :: c :: r)
            else match l with
              | [] => .throws
              | d :: l =>
                if four a b c d then do
                  let r ← escape l
                  .ok (a :: b :: c :: d :: r)
                else .throws

/-- slicer.cpp:711-719: the exit code and the text of the error stream. -/
def Run.code (r : Run) : Int :=
  match r.ended with
  | .returned n => n
  | .exception _ => 100

def Run.messages (r : Run) : Str :=
  match r.ended with
  | .returned _ => r.err
  | .exception w => r.err ++ "Compiler exception: ".toList ++ w ++ ['\n']

/-- slicer.cpp:721-727: the members of an object are ordered by their keys. -/
def Run.dump (r : Run) : Outcome Str := do
  let e ← escape r.messages
  let o ← escape r.output
  .ok ("{\n   \"err\": \"".toList ++ e ++ "\",\n   \"exit_code\": ".toList ++ showInt r.code ++ ",\n   \"output\": \"".toList ++ o ++ "\"\n}".toList)

/-- slicer.cpp:696-728 `run_slicer_program_from_strings`. -/
def reply (p : Prog) (command input : Str) : Outcome Str := do
  let r ← p (arguments command) input
  r.dump

/-- `Array.prototype.join` of a list of strings. -/
def join (sep : Char) : List Str → Str
  | [] => []
  | [x] => x
  | x :: y :: l => x ++ sep :: join sep (y :: l)

/-- /repo/npm/src/index.ts:48-57: the command line made from the name of a layout generator (possibly empty), whether the input is QASM, and whether
corrections are asked for. -/
def npmCommand (generator : Str) (qasm always : Bool) : Str :=
  join ' ' [if generator = [] then [] else "-L ".toList ++ generator, if qasm then "-I qasm".toList else [], "--cnotcorrections".toList,
    if always then "always".toList else "never".toList]

end Verif.FromStrings
