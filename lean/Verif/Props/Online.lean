import Verif.Proofs.Online
import Verif.Props.LL
import Verif.Props.GLR
import Verif.Props.Lexer

/-!
# C83 — lexers and parsers work on-line

They decide with what they have read so far. Consequences: text or tokens that come later do not change what has been reported, and a
token function may depend on the callbacks made before it is called (`TokenSource`): the run is that on one fixed stream, so that all
theorems about streams hold for it.
-/

set_option autoImplicit false

namespace Verif

variable {T : Type}

/-! ## Later input does not matter -/

/-- Two texts with a common prefix: as long as the lexer stands inside the prefix (one char beyond the token is known), its results and
spans are the same for both. This holds for whatever tables. -/
theorem C83_lexer_online (t : LexerTables) (u v v' : List Char) (hs : List (LexResult × Lexer)) (l : Lexer) (h : LexRun t (Lexer.new (u ++ v)) hs l)
    (hp : l.position < bytes u) : ∃ hs' l', LexRun t (Lexer.new (u ++ v')) hs' l' ∧ hs'.map seen = hs.map seen ∧ l'.position = l.position :=
  lexRun_online v v' h u _ rfl rfl rfl (by simpa [Lexer.new] using hp)

/-- The LR parser's result and callbacks depend on no tokens but those it has asked for. -/
theorem C83_lr_online (m : LRMachine) (input input' : Nat → Tok × T) (n : Nat) (h : ∀ i, i ≤ (lrParse m input n).asked → input' i = input i) :
    lrParse m input' n = lrParse m input n := lrRun_online m n _ _ _ h

/-- The LL parser's result and callbacks depend on no tokens but those it has asked for. -/
theorem C83_ll_online (disp : Dispatch) (visible : Nat → Bool) (entry : Nat) (input input' : Nat → Tok × T) (n p : Nat)
    (hp : (llParse disp visible entry input n).asked? = some p) (h : ∀ i, i ≤ p → input' i = input i) :
    llParse disp visible entry input' n = llParse disp visible entry input n := llRun_online disp visible n _ _ _ _ hp h

/-- The GLR parser's result and callbacks depend on no tokens but those it has asked for. -/
theorem C83_glr_online (m : GlrMachine) (input input' : Nat → Tok × T) (n : Nat) (h : ∀ i, i ≤ (glrParse m input n).asked → input' i = input i) :
    glrParse m input' n = glrParse m input n := glrRun_online m n n _ _ _ _ h

/-! ## Token functions that look at the callbacks -/

/-- Whatever an LR parser's token function does with the callbacks, the run is that on some stream. -/
theorem C83_lr_feedback (m : LRMachine) (F : TokenSource (LREvent T) T) : ∃ input, ∀ n, lrFeed m F n = lrParse m input n := lrFeed_stream m F

/-- the same for LL parsers -/
theorem C83_ll_feedback (disp : Dispatch) (visible : Nat → Bool) (entry : Nat) (F : TokenSource (LLEvent T) T) :
    ∃ input, ∀ n, llFeed disp visible entry F n = llParse disp visible entry input n := llFeed_stream disp visible entry F

/-- the same for GLR parsers -/
theorem C83_glr_feedback (m : GlrMachine) (F : TokenSource (LREvent T) T) : ∃ input, ∀ n, glrFeed m F n = glrParse m input n := glrFeed_stream m F

/-- Streams are the token functions that ignore the callbacks. -/
theorem C83_streams (m : LRMachine) (gm : GlrMachine) (disp : Dispatch) (visible : Nat → Bool) (entry : Nat) (input : Nat → Tok × T) (n : Nat) :
    lrFeed m (fun k _ => input k) n = lrParse m input n ∧ glrFeed gm (fun k _ => input k) n = glrParse gm input n ∧
    llFeed disp visible entry (fun k _ => input k) n = llParse disp visible entry input n :=
  ⟨lrFeedRun_stream m input n _ _ _, glrFeedRun_stream gm input n n _ _ _ _, llFeedRun_stream disp visible input n _ _ _⟩

/-- When an LR parser asks for token number k > 0, the callbacks made so far end with the shift of token number k - 1: nothing else of the
token function matters. -/
theorem C83_lr_calls (m : LRMachine) (F F' : TokenSource (LREvent T) T) (h0 : F 0 [] = F' 0 [])
    (h : ∀ ev t d, F ((shiftsOf ev).length + 1) (ev ++ [.shift t d]) = F' ((shiftsOf ev).length + 1) (ev ++ [.shift t d])) (n : Nat) :
    lrFeed m F n = lrFeed m F' n := by
  unfold lrFeed
  rw [h0]
  exact lrFeedRun_calls m h n _ _ _ _ rfl

/-- When an LL parser asks for token number k > 0, the callbacks made so far end with token number k - 1. -/
theorem C83_ll_calls (disp : Dispatch) (visible : Nat → Bool) (entry : Nat) (F F' : TokenSource (LLEvent T) T) (h0 : F 0 [] = F' 0 [])
    (h : ∀ ev t d, F ((tokensOf ev).length + 1) (ev ++ [.token t d]) = F' ((tokensOf ev).length + 1) (ev ++ [.token t d])) (n : Nat) :
    llFeed disp visible entry F n = llFeed disp visible entry F' n := by
  unfold llFeed
  rw [h0]
  exact llFeedRun_calls disp visible h n _ _ _ _ rfl

/-- So with such a token function, too, an LR parser that returns Ok has reported a parse tree; and it never panics. -/
theorem C83_lr_tree (g : Grammar) (wf : g.WF) (hne : NoEmptyRhs g) (kind : LRKind) (p : LRProg) (hp : LRParserFor g kind p)
    (F : TokenSource (LREvent T) T) (n : Nat) :
    (∀ events pos, lrFeed p.machine F n = .ok events pos → ∃ t, IsParseTree g.rules g.entry t ∧ TraceIs g events t.postorder) ∧
    ∀ events pos, lrFeed p.machine F n ≠ .panic events pos := by
  obtain ⟨input, hin⟩ := lrFeed_stream p.machine F
  rw [hin n]
  refine ⟨fun events pos h => ?_, fun events pos => C34_no_panic g wf hne kind p hp input n events pos⟩
  obtain ⟨t, h1, _, h3⟩ := C28_sound g wf hne kind p hp input n events pos h
  exact ⟨t, h1, h3⟩

/-- the same for GLR parsers that return Ok -/
theorem C83_glr_tree (g : Grammar) (wf : g.WF) (hne : NoEmptyRhs g) (kind : LRKind) (p : GlrProg) (hp : GlrParserFor g kind p)
    (F : TokenSource (LREvent T) T) (n : Nat) (events : List (LREvent T)) (pos : Nat) (h : glrFeed p.machine F n = .ok events pos) :
    ∃ t, IsParseTree g.rules g.entry t ∧ TraceIs g events t.postorder := by
  obtain ⟨input, hin⟩ := glrFeed_stream p.machine F
  rw [hin n] at h
  obtain ⟨_, t, _, h1, _, h3⟩ := C38_sound g wf hne kind p hp input n events pos h
  exact ⟨t, h1, h3⟩

/-- the same for C++ LL parsers of grammars without gaps -/
theorem C83_ll_tree (g : Grammar) (wf : g.WF) (hne : NoEmptyRhs g) (ht : TokensFit g) (hgap : NoGaps g) (fuel : Nat) (hf : setsFuel g ≤ fuel)
    (table : LLTable) (hg : llGenerateTable g fuel = .ok table) (E : Nat) (hE : g.entry = .nt E) (F : TokenSource (LLEvent T) T) (n : Nat)
    (events : List (LLEvent T)) (pos : Nat) (h : llFeed (cppDispatch g table) (cppVisible g) E F n = .ok events pos) :
    ∃ (t : PTree T) (d : T), IsParseTree g.rules g.entry t ∧ events = t.callbacks (cppVisible g) ++ [.token .eof d] := by
  obtain ⟨input, hin⟩ := llFeed_stream (cppDispatch g table) (cppVisible g) E F
  rw [hin n] at h
  obtain ⟨t, h1, _, _, _, h3⟩ := C23_cpp_without_gaps g wf hne ht hgap fuel hf table hg E hE input n events pos h
  exact ⟨t, _, h1, h3⟩

/-! ## One char beyond the token is needed -/

/-- The texts `a` and `abd` share the prefix `a`; on the first the lexer returns the token `a`, on the second it reports an error. -/
theorem C83_lexer_counterexample : ∃ t l l' r, generateLexer 20 abcRules = .ok (.ok t) ∧ (Lexer.new ['a']).next t = .ok (.token 0, l) ∧
    l.position = bytes ['a'] ∧ (Lexer.new ['a', 'b', 'd']).next t = .ok (.unexpectedAlphabet r, l') := by
  obtain ⟨t, ht⟩ := Res.of_tables (r := generateLexer 20 abcRules) (by decide +kernel)
  have e1 : (generateLexer 20 abcRules).tables = some t := by rw [ht]; rfl
  have e2 : ((generateLexer 20 abcRules).tables.map (fun t => (Lexer.new ['a']).next t)) =
      some (.ok (.token 0, ⟨['a'], [], 0, 1⟩)) := by decide +kernel
  rw [e1, Option.map_some, Option.some.injEq] at e2
  obtain ⟨_, t', l', ht', h3⟩ := C10_no_backtracking
  rw [ht] at ht'
  cases ht'
  exact ⟨t, _, l', _, ht, e2, rfl, h3⟩

/-! ## the conditions can be met -/

/-- generating an LR parser and running it with a token function that sees the callbacks -/
def lrFeedTry (g : Grammar) (kind : LRKind) (fuel : Nat) (F : TokenSource (LREvent Unit) Unit) (steps : Nat) : Option (LRResult Unit) :=
  match generateTable g false kind fuel with
  | .ok (.noConflicts tb) =>
    match genRust g tb with
    | .ok p => some (lrFeed p.machine F steps)
    | .error _ => none
  | _ => none

/-- a token function that closes as many parentheses as were shifted -/
def closeAll : TokenSource (LREvent Unit) Unit := fun k ev =>
  (if k < 2 then .tok 0 else if k = 2 then .tok 2 else
    if (shiftsOf ev).count (.tok 1, ()) < (shiftsOf ev).count (.tok 0, ()) then .tok 1 else .eof, ())

/-- generating a GLR parser and running it with a token function that sees the callbacks -/
def glrFeedTry (g : Grammar) (kind : LRKind) (fuel : Nat) (F : TokenSource (LREvent Unit) Unit) (steps : Nat) : Option (GlrResult Unit) :=
  match generateTable g true kind fuel with
  | .ok (.noConflicts tb) =>
    match genGlr g tb with
    | .ok p => some (glrFeed p.machine F steps)
    | .error _ => none
  | _ => none

/-- The GLR parser asks for a token before it reports the one before: with the same grammar and the same token function the LR parser returns
Ok, while for the GLR parser the token function sees one shift less, closes once too often, and the parser reports an error. -/
theorem C83_glr_late_counterexample :
    lrFeedTry parenGrammar .lr1 60 closeAll 30 = some (.ok [.shift (.tok 0) (), .shift (.tok 0) (), .shift (.tok 2) (), .reduce 1,
      .shift (.tok 1) (), .reduce 0, .shift (.tok 1) (), .reduce 0] 5) ∧
    glrFeedTry parenGrammar .lr1 60 closeAll 30 = some (.unexpected [.shift (.tok 0) (), .shift (.tok 0) (), .shift (.tok 2) (), .reduce 1,
      .shift (.tok 1) (), .reduce 0, .shift (.tok 1) ()] 5 [[none]]) := by decide +kernel

-- an LL parser: after the token 2 the token function answers 0, then the end
example : llFeed (tableDispatch gapTable) (fun _ => true) 0 (fun k ev => (if k = 0 then .tok 2 else if tokensOf ev = [(.tok 2, ())] then .tok 0 else .eof, ())) 20 =
    .ok [.enter 0, .token (.tok 2) (), .enter 3, .token (.tok 0) (), .exit 3, .exit 0, .token .eof ()] 3 := by decide +kernel

-- the lexer on `aab…`: after the first token it stands inside the prefix `aab`
example : ∃ t hs l, generateLexer 20 abcRules = .ok (.ok t) ∧ LexRun t (Lexer.new (['a', 'a', 'b'] ++ ['c'])) hs l ∧ hs.map seen = [(.token 0, 0, 1)] ∧
    l.position < bytes ['a', 'a', 'b'] := by
  obtain ⟨t, ht⟩ := Res.of_tables (r := generateLexer 20 abcRules) (by decide +kernel)
  have e1 : (generateLexer 20 abcRules).tables = some t := by rw [ht]; rfl
  have e2 : ((generateLexer 20 abcRules).tables.map (fun t => (Lexer.new (['a', 'a', 'b'] ++ ['c'])).next t)) =
      some (.ok (.token 0, ⟨['a', 'a', 'b', 'c'], ['a', 'b', 'c'], 0, 1⟩)) := by decide +kernel
  rw [e1, Option.map_some, Option.some.injEq] at e2
  exact ⟨t, _, _, ht, .cons e2 (.nil _), rfl, by decide⟩

-- an LR parser that stops at an error has not looked at the tokens behind it
example : ∃ p, LRParserFor parenGrammar .lr1 p ∧ (lrParse p.machine (streamOf [0, 2, 2]) 20).asked = 2 := by
  obtain ⟨p, h1, h2⟩ := lrTry_some (g := parenGrammar) (kind := .lr1) (fuel := 60) (w := [0, 2, 2]) (steps := 20)
    (r := .unexpected [.shift (.tok 0) (), .shift (.tok 2) ()] 2 [.t 1]) (by decide +kernel)
  exact ⟨p, h1, by rw [h2]; rfl⟩

end Verif
