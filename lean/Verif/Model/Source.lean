import Verif.Model.Lexer

/-!
# Source positions (`lapex-input/src/lib.rs`) and the token function of the lapex input parser (`lapex-input-gen/src/lib.rs`)

Texts are lists of chars. `u16` additions that overflow panic (debug build).
-/

set_option autoImplicit false

namespace Verif

/-- number of values of a `u16` -/
def u16Count : Nat := 65536

/-- `struct SourcePos` — lapex-input/src/lib.rs:3-7. -/
structure SourcePos where
  line : Nat
  col : Nat
deriving DecidableEq, Repr

/-- `struct SourceSpan` — lapex-input/src/lib.rs:9-13. -/
structure SourceSpan where
  start : SourcePos
  stop : SourcePos
deriving DecidableEq, Repr

/-- `n += k` for a `u16` -/
def addU16 (n k : Nat) : Res Nat := if n + k < u16Count then .ok (n + k) else .error .panic

/-- the loop of `SourcePos::offset` — lapex-input/src/lib.rs:19-34; `off` is what `char_indices` yields next. -/
def SourcePos.offsetFrom (pos : SourcePos) (line col off : Nat) : List Char → Res (Option Nat)
  | [] => .ok (if line = pos.line ∧ col = pos.col then some off else none)
  | ch :: rest =>
    if line = pos.line ∧ col = pos.col then .ok (some off)
    else if ch = '\n' then do
      let line ← addU16 line 1
      pos.offsetFrom line 1 (off + ch.utf8Size) rest
    else do
      let col ← addU16 col 1
      pos.offsetFrom line col (off + ch.utf8Size) rest

/-- `SourcePos::offset` — lapex-input/src/lib.rs:16-34. -/
def SourcePos.offset (pos : SourcePos) (text : List Char) : Res (Option Nat) := pos.offsetFrom 1 1 0 text

/-- `SourceSpan::substring` — lapex-input/src/lib.rs:38-42. -/
def SourceSpan.substring (span : SourceSpan) (text : List Char) : Res (Option (List Char)) := do
  match ← span.start.offset text with
  | none => .ok none
  | some start =>
    match ← span.stop.offset text with
    | none => .ok none
    | some stop => do
      let s ← byteSlice text start stop
      .ok (some s)

/-- `struct TokenData` — lapex-input-gen/src/lib.rs:21-25. -/
structure TokenData where
  text : List Char
  span : SourceSpan
deriving DecidableEq, Repr

/-- the variables captured by the closure `token_fun` — lapex-input-gen/src/lib.rs:516-520. -/
structure TokenFun where
  lexer : Lexer
  col : Nat
  line : Nat
deriving DecidableEq, Repr

/-- lapex-input-gen/src/lib.rs:516-520. -/
def TokenFun.new (source : List Char) : TokenFun := ⟨Lexer.new source, 1, 1⟩

/-- `lexer.next().unwrap()`: errors of the lexer panic -/
def nextUnwrap (t : LexerTables) (l : Lexer) : Res (LexResult × Lexer) := do
  let (r, l) ← l.next t
  match r with
  | .token j => .ok (.token j, l)
  | .eof => .ok (.eof, l)
  | _ => .error .panic

/-- the `loop` of `token_fun` — lapex-input-gen/src/lib.rs:523-536: newlines (rule `nl`) and whitespace (rule `ws`) are skipped. -/
def TokenFun.skip (t : LexerTables) (nl ws : Nat) : Nat → LexResult → TokenFun → Res (LexResult × TokenFun)
  | 0, _, _ => .error .fuel
  | fuel + 1, tk, st =>
    if tk = .token nl then do
      let (tk, lexer) ← nextUnwrap t st.lexer
      let line ← addU16 st.line 1
      TokenFun.skip t nl ws fuel tk ⟨lexer, 1, line⟩
    else if tk = .token ws then do
      let slice ← st.lexer.slice
      let col ← addU16 st.col ((slice.map Char.utf8Size).sum % u16Count)
      let (tk, lexer) ← nextUnwrap t st.lexer
      TokenFun.skip t nl ws fuel tk ⟨lexer, col, st.line⟩
    else .ok (tk, st)

/-- one call of `token_fun` — lapex-input-gen/src/lib.rs:521-553. -/
def TokenFun.call (t : LexerTables) (nl ws : Nat) (fuel : Nat) (st : TokenFun) : Res (LexResult × TokenData × TokenFun) := do
  let (tk, lexer) ← nextUnwrap t st.lexer
  let (tk, st) ← TokenFun.skip t nl ws fuel tk { st with lexer := lexer }
  let slice ← st.lexer.slice
  let col ← addU16 st.col ((slice.map Char.utf8Size).sum % u16Count)
  .ok (tk, ⟨slice, ⟨⟨st.line, st.col⟩, ⟨st.line, col⟩⟩⟩, { st with col := col })

end Verif
