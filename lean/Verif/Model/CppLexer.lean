import Verif.Model.Lexer

/-!
# The generated C++ lexer: `lapex-cpp-codegen/src/lexer/`

Bytes are `UInt8`; the C++ integer expressions of `utf8_decode` are evaluated on natural numbers (all intermediate values are below
2^25, so 32-bit arithmetic does not wrap).
-/

set_option autoImplicit false

namespace Verif

/-- `lengths` — lapex-cpp-codegen/src/lexer/lexer.cpp.tpl:10-12. -/
def utf8Lengths : List Nat :=
  [1, 1, 1, 1, 1, 1, 1, 1, 1, 1, 1, 1, 1, 1, 1, 1,
   0, 0, 0, 0, 0, 0, 0, 0, 2, 2, 2, 2, 3, 3, 4, 0]
/-- `masks` — lexer.cpp.tpl:13. -/
def utf8Masks : List Nat := [0x00, 0x7f, 0x1f, 0x0f, 0x07]
/-- `mins` — lexer.cpp.tpl:14. -/
def utf8Mins : List Nat := [4194304, 0, 128, 2048, 65536]
/-- `shiftc` — lexer.cpp.tpl:15. -/
def utf8Shiftc : List Nat := [0, 18, 12, 6, 0]
/-- `shifte` — lexer.cpp.tpl:16. -/
def utf8Shifte : List Nat := [0, 6, 4, 2, 0]

/-- the code point computed from the four buffer bytes — lexer.cpp.tpl:27-31. -/
def utf8Value (len s0 s1 s2 s3 : Nat) : Nat :=
  (((s0 &&& utf8Masks.getD len 0) <<< 18) ||| ((s1 &&& 0x3f) <<< 12) ||| ((s2 &&& 0x3f) <<< 6) ||| ((s3 &&& 0x3f) <<< 0))
    >>> utf8Shiftc.getD len 0

/-- the error bits computed from code point and bytes — lexer.cpp.tpl:34-41. -/
def utf8Error (len c s1 s2 s3 : Nat) : Nat :=
  let e := (if c < utf8Mins.getD len 0 then 1 else 0) <<< 6
  let e := e ||| ((if c >>> 11 = 0x1b then 1 else 0) <<< 7)
  let e := e ||| ((if c > 0x10FFFF then 1 else 0) <<< 8)
  let e := e ||| ((s1 &&& 0xc0) >>> 2)
  let e := e ||| ((s2 &&& 0xc0) >>> 4)
  let e := e ||| (s3 >>> 6)
  (e ^^^ 0x2a) >>> utf8Shifte.getD len 0

/-- a byte of the zero-initialised buffer `buf[4]` — lexer.cpp.tpl:18. -/
def bufAt (buf : List UInt8) (i : Nat) : Nat := (buf[i]?.map UInt8.toNat).getD 0

/-- `utf8_decode` — lexer.cpp.tpl:8-42. `input` is what the stream still holds; `in.read` at the end of the stream stores fewer
bytes. Returns code point, error bits and the remaining stream. -/
def utf8Decode (input : List UInt8) : Nat × Nat × List UInt8 :=
  let buf0 := input.take 1
  let rest := input.drop 1
  let s0 := bufAt buf0 0
  let len := utf8Lengths.getD (s0 >>> 3) 0
  let n := if len > 1 then len - 1 else 0
  let buf := buf0 ++ rest.take n
  let rest := rest.drop n
  let s1 := bufAt buf 1
  let s2 := bufAt buf 2
  let s3 := bufAt buf 3
  let c := utf8Value len s0 s1 s2 s3
  (c, utf8Error len c s1 s2 s3, rest)

/-- what the C++ `next` returns: `TK_<name>` of a rule, `TK_EOF` or `TK_ERR`. -/
inductive CppToken where
  | token (rule : Nat)
  | eof
  | err
deriving DecidableEq, Repr

/-- `class Lexer` — lapex-cpp-codegen/src/lexer/lexer.h.tpl:9-23. `ch = none` is the C++ value -1 ("read a char first"). -/
structure CppLexer where
  input : List UInt8
  ch : Option Nat
  err : Nat
  startPos : Nat
  endPos : Nat
  position : Nat
deriving DecidableEq, Repr

/-- constructor — lexer.cpp.tpl:5. -/
def CppLexer.new (input : List UInt8) : CppLexer :=
  { input := input, ch := none, err := 0, startPos := 0, endPos := 0, position := 0 }

/-- what the generated `switch (state)` does. -/
inductive CppStep where
  | ret (t : CppToken) (setEnd : Bool)
  | advance (state : Nat)
deriving DecidableEq, Repr

/-- the generated automaton switch — lapex-cpp-codegen/src/lexer/mod.rs:56-93. (Two equal `case` labels would not compile; by C06
there are none. The model takes the first.) -/
def cppStateSwitch (dfa : Dfa Nat Nat) (state i : Nat) : CppStep :=
  match dfa.graph.nodes[state]? with
  | none => .ret .err false
  | some node =>
    if state = 0 ∧ i = 0 then .ret .eof false
    else
      match (dfa.transitionsFrom state).find? (fun tt => tt.1 ≠ 0 ∧ tt.1 = i) with
      | some (_, target) => .advance target
      | none =>
        match node with
        | .accepting rule => .ret (.token rule) true
        | .intermediate _ => .ret .err false

/-- `if (this->ch == -1) utf8_decode(...)` — lexer.cpp.tpl:59-62; also returns the char. -/
def cppRead (l : CppLexer) : Nat × CppLexer :=
  match l.ch with
  | some ch => (ch, l)
  | none =>
    let (c, e, rest) := utf8Decode l.input
    (c, { l with input := rest, ch := some c, err := e })

/-- the `while (1)` loop of `next` — lexer.cpp.tpl:57-72 with the alphabet switch (lapex-cpp-codegen/src/lexer/mod.rs:34-54).
Recursion on fuel. -/
def cppLoop (t : LexerTables) : Nat → Nat → CppLexer → Res (CppToken × CppLexer)
  | 0, _, _ => .error .fuel
  | fuel + 1, state, l =>
    let (ch, l) := cppRead l
    if l.err ≠ 0 then .ok (.err, l)
    else
      match getAlphabetIndex t.alphabet ch with
      | none => .ok (.err, l)
      | some i =>
        match cppStateSwitch t.dfa state i with
        | .ret tok setEnd => .ok (tok, if setEnd then { l with endPos := l.position } else l)
        | .advance state => cppLoop t fuel state { l with ch := none, position := l.position + 1 }

/-- `Lexer::next` — lexer.cpp.tpl:53-74. -/
def CppLexer.next (t : LexerTables) (fuel : Nat) (l : CppLexer) : Res (CppToken × CppLexer) :=
  cppLoop t fuel 0 { l with startPos := l.position }

end Verif
