import Verif.Proofs.RustGlrFuns
import Verif.Proofs.RustLRFile

/-! # The text of the GLR parser: the file -/

set_option autoImplicit false

namespace Verif

variable {T : Type}

/-- four streams: the first ends in `;`, the second and third in a block, and all but the first begin with words -/
theorem rRead_four {f1 f2 f3 f4 : RForest} (h1 : f1.Ok) (h2 : f2.Ok) (h3 : f3.Ok) (h4 : f4.Ok) (hw : ∀ ts st, rLexRun .base f1.print = some (ts, st) → WordFollows st)
    (hb2 : lastBrace f2 = true) (hb3 : lastBrace f3 = true) {c2 c3 c4 : Char} {r2 r3 r4 : List Char} (e2 : f2.print = c2 :: r2) (e3 : f3.print = c3 :: r3) (e4 : f4.print = c4 :: r4)
    (w2 : isRWordChar c2 = true) (w3 : isRWordChar c3 = true) (w4 : isRWordChar c4 = true) :
    rRead (f1.print ++ f2.print ++ f3.print ++ f4.print) = some (f1.append (f2.append (f3.append f4))) := by
  obtain ⟨ts1, st1, p1, l1, q1, s1⟩ := lex_print f1 h1
  obtain ⟨ts2, st2, p2, l2, q2, s2⟩ := lex_print f2 h2
  obtain ⟨ts3, st3, p3, l3, q3, s3⟩ := lex_print f3 h3
  obtain ⟨ts4, st4, p4, l4, q4, s4⟩ := lex_print f4 h4
  obtain ⟨a, ha⟩ := print_lastBrace f2 hb2
  obtain ⟨b, hb⟩ := print_lastBrace f3 hb3
  have hst2 : st2 = .base := by rw [ha] at l2; exact run_brace l2 q2
  have hst3 : st3 = .base := by rw [hb] at l3; exact run_brace l3 q3
  apply rRead_of_lex
  unfold rLex
  have r2' := run_follow q1 (hw _ _ l1) w2 (by rw [← e2]; exact l2)
  rw [← e2] at r2'
  have r3' := run_follow q2 (by rw [hst2]; trivial) w3 (by rw [← e3]; exact l3)
  rw [← e3] at r3'
  have r4' := run_follow q3 (by rw [hst3]; trivial) w4 (by rw [← e4]; exact l4)
  rw [← e4] at r4'
  rw [run_append (run_append (run_append l1 r2') r3') r4']
  simp only [pend_end q4, Option.map_some, rf_flatten_append, s1, s2, s3, s4, List.append_assoc]

/-! ## Functions in the text -/

/-- the block of `next_goto` -/
def glrGotoBody (gotos : RForest) : RForest := rs! "match (state, symbol) { #gotos (_, _) => None, }"

/-- the block of `get_rule_reduction` and of `do_visit` -/
def glrRuleBody (arms : RForest) : RForest := rs! "match rule { #arms }"

/-- the whole stream -/
def glrStream (m d entry nts rules actions gotos reds visits : RForest) : RForest :=
  (rs! "use super::tokens::TokenType;").append ((rustVisitorTokens m).append ((rustDebugTokens d).append (rustGlrTokens entry nts rules actions gotos reds visits)))

section
variable (m d entry nts rules actions gotos reds visits : RForest)

/-- the block of the parser -/
def glrImpl : RForest := ((findImpl "Parser".toList none (rustGlrTokens entry nts rules actions gotos reds visits))).getD .nil

set_option maxRecDepth 8000 in
theorem find_glrImpl : findImpl "Parser".toList none (glrStream m d entry nts rules actions gotos reds visits) = some (glrImpl entry nts rules actions gotos reds visits) := rfl
theorem find_glrActions : findFn "next_actions".toList .look (glrImpl entry nts rules actions gotos reds visits) = some (rActionBody actions) := rfl
theorem find_glrGoto : findFn "next_goto".toList .look (glrImpl entry nts rules actions gotos reds visits) = some (glrGotoBody gotos) := rfl
theorem find_glrReduction : findFn "get_rule_reduction".toList .look (glrImpl entry nts rules actions gotos reds visits) = some (glrRuleBody reds) := rfl
theorem find_glrVisit : findFn "do_visit".toList .look (glrImpl entry nts rules actions gotos reds visits) = some (glrRuleBody visits) := rfl
theorem find_glrNtEnum : findEnum "NonTerminalType".toList (glrStream m d entry nts rules actions gotos reds visits) = readVariants nts := rfl
theorem find_glrRuleEnum : findEnum "ReducedRule".toList (glrStream m d entry nts rules actions gotos reds visits) = readVariants rules := rfl
theorem find_glrVisitor : (findTrait "Visitor".toList (glrStream m d entry nts rules actions gotos reds visits)).map declaredFns = some ("shift".toList :: declaredFns m) := rfl

theorem ok_escStr {w : List Char} {f : RForest} (h : strOkFrom w) (hf : f.Ok) : (RForest.str w f).Ok := ⟨h, hf⟩

/-- the literals with `\n` -/
theorem glr_literals : strOkFrom "Multiple diverging parse stacks reached unexpected ends:\\n{}".toList ∧ strOkFrom "\\n".toList := by
  constructor <;> simp [strOkFrom]

theorem ok_glrTokens (he : entry.Ok) (h1 : nts.Ok) (h2 : rules.Ok) (h3 : actions.Ok) (h4 : gotos.Ok) (h5 : reds.Ok) (h6 : visits.Ok) :
    (rustGlrTokens entry nts rules actions gotos reds visits).Ok := by
  unfold rustGlrTokens
  repeat' (with_reducible (first | refine ok_word (by with_unfolding_all rfl) ?_ | refine ok_sym (by with_unfolding_all rfl) ?_ | refine ok_group ?_ ?_ | exact ok_nil | refine ok_append ?_ ?_ | refine ok_life (by with_unfolding_all rfl) ?_ | refine ok_str (by with_unfolding_all rfl) ?_ | assumption))
  exact ok_escStr glr_literals.1 (ok_sym rfl (ok_word rfl (ok_sym rfl (ok_word rfl (ok_group (ok_escStr glr_literals.2 ok_nil) ok_nil)))))

theorem glr_read (hm : m.Ok) (hd : d.Ok) (he : entry.Ok) (h1 : nts.Ok) (h2 : rules.Ok) (h3 : actions.Ok) (h4 : gotos.Ok) (h5 : reds.Ok) (h6 : visits.Ok) :
    rRead ((rs! "use super::tokens::TokenType;").print ++ (rustVisitorTokens m).print ++ (rustDebugTokens d).print ++ (rustGlrTokens entry nts rules actions gotos reds visits).print) =
      some (glrStream m d entry nts rules actions gotos reds visits) := by
  refine rRead_four (c2 := 'p') (c3 := 'p') (c4 := 'p') ?_ ?_ ?_ (ok_glrTokens _ _ _ _ _ _ _ he h1 h2 h3 h4 h5 h6) ?_ rfl rfl rfl rfl rfl (by decide) (by decide) (by decide)
  · rust_ok
  · unfold rustVisitorTokens; rust_ok
  · unfold rustDebugTokens; rust_ok
  · intro ts st h
    rw [show rLexRun .base (rs! "use super::tokens::TokenType;").print = some ([.word "use".toList, .word "super".toList, .sym "::".toList, .word "tokens".toList, .sym "::".toList, .word "TokenType".toList], .sym [';']) by decide] at h
    cases h
    trivial
end

/-! ## Tokens as they are read -/

section
variable {g : Grammar} (hg : g.WordNames)

theorem ok_glrAction (a : LRAction) : (rustGlrAction a).Ok := by
  cases a with
  | shift => unfold rustGlrAction; rust_ok
  | reduce i =>
    have := ok_ruleIdent i
    unfold rustGlrAction; rust_ok

theorem ok_glrActions (as : List LRAction) : (rustGlrActions as).Ok := by
  have : (RForest.joinComma (as.map rustGlrAction)).Ok := ok_joinComma (by intro f hf; obtain ⟨a, _, rfl⟩ := List.mem_map.mp hf; exact ok_glrAction a)
  unfold rustGlrActions; rust_ok

theorem ok_glrGoto (a : LRGoto) : (rustGlrGoto a).Ok := by
  cases a with
  | accept => unfold rustGlrGoto; rust_ok
  | state q =>
    have := ok_usize q
    unfold rustGlrGoto; rust_ok

include hg in
theorem ok_glrActionArm {q : Nat} {x : Sym × List LRAction} {fs : List RForest} (h : rustGlrActionArm g q x = .ok fs) : ∀ f ∈ fs, f.Ok := by
  obtain ⟨s, a⟩ := x
  have h1 := ok_glrActions a
  have h2 := ok_usize q
  cases s with
  | t b =>
    simp only [rustGlrActionArm] at h
    obtain ⟨t, h3, h⟩ := res_bind_ok.mp h
    cases h
    have := tokenIdent_word hg h3
    intro f hf
    cases List.mem_singleton.mp hf
    rust_ok
  | eof =>
    cases h
    intro f hf
    cases List.mem_singleton.mp hf
    rust_ok
  | nt A => cases h; simp
  | eps => cases h; simp

include hg in
theorem ok_glrExpected {s : Option Nat} {f : RForest} (h : rustGlrExpected g s = .ok f) : f.Ok := by
  cases s with
  | some b =>
    simp only [rustGlrExpected] at h
    obtain ⟨t, h3, h⟩ := res_bind_ok.mp h
    cases h
    have := tokenIdent_word hg h3
    rust_ok
  | none => cases h; rust_ok

include hg in
theorem ok_glrStateActions {x : (List (Sym × List LRAction) × List (Option Nat)) × Nat} {fs : List RForest} (h : rustGlrStateActions g x = .ok fs) : ∀ f ∈ fs, f.Ok := by
  unfold rustGlrStateActions at h
  obtain ⟨arms, h1, h⟩ := res_bind_ok.mp h
  obtain ⟨es, h2, h⟩ := res_bind_ok.mp h
  cases h
  have h3 := ok_usize x.2
  have h4 : (RForest.sepComma es).Ok := ok_sepComma (by intro f hf; obtain ⟨s, _, hs⟩ := mem_mapM h2 f hf; exact ok_glrExpected hg hs)
  intro f hf
  rcases List.mem_append.mp hf with hf | hf
  · exact ok_flatten (fun x fs => ok_glrActionArm hg) h1 f hf
  · cases List.mem_singleton.mp hf
    rust_ok

include hg in
theorem ok_glrGotoArm {q : Nat} {x : Sym × LRGoto} {fs : List RForest} (h : rustGlrGotoArm g q x = .ok fs) : ∀ f ∈ fs, f.Ok := by
  obtain ⟨s, a⟩ := x
  have h1 := ok_glrGoto a
  have h2 := ok_usize q
  cases s with
  | t b =>
    simp only [rustGlrGotoArm] at h
    obtain ⟨t, h3, h⟩ := res_bind_ok.mp h
    cases h
    have := tokenIdent_word hg h3
    intro f hf
    cases List.mem_singleton.mp hf
    rust_ok
  | nt A =>
    simp only [rustGlrGotoArm] at h
    obtain ⟨t, h3, h⟩ := res_bind_ok.mp h
    cases h
    have := ntIdent_word hg h3
    intro f hf
    cases List.mem_singleton.mp hf
    rust_ok
  | eof => cases h; simp
  | eps => cases h; simp

include hg in
theorem ok_glrStateGotos {x : List (Sym × LRGoto) × Nat} {fs : List RForest} (h : rustGlrStateGotos g x = .ok fs) : ∀ f ∈ fs, f.Ok := by
  unfold rustGlrStateGotos at h
  obtain ⟨arms, h1, h⟩ := res_bind_ok.mp h
  cases h
  exact ok_flatten (fun x fs => ok_glrGotoArm hg) h1

variable {rs : RuleSet} (ht : TagWords rs)

/-! ## The debug visitor -/

/-- a method with its definition: its block prints the text -/
def Defines (f : RForest) (x : List Char × List Char) : Prop :=
  ∃ name text, x = (name, text) ∧ f = .word ['f', 'n'] (.word name (.group .paren (rs! "&mut self") (.group .brace (.word "println".toList (.sym ['!'] (.group .paren (.str text .nil) (.sym [';'] .nil)))) .nil)))

include hg ht in
theorem debugMethod_ok {A n i r : Nat} {f : RForest} (h : rustDebugMethod rs g A n i r = .ok f) :
    f.Ok ∧ Declares f (callbackName rs g A n i r) ∧ ∃ rule text, g.rules[r]? = some rule ∧ ruleText g rule = .ok text ∧ Defines f (callbackName rs g A n i r, text) := by
  unfold rustDebugMethod at h
  cases hr : g.rules[r]? with
  | none => rw [hr] at h; cases h
  | some rule =>
    rw [hr] at h
    obtain ⟨text, h1, h⟩ := res_bind_ok.mp h
    cases h
    refine ⟨?_, fun rest => rfl, rule, text, rfl, h1, _, _, rfl, rfl⟩
    have h2 : (RForest.str text .nil).Ok := ok_str (strB_rule hg h1) ok_nil
    have h3 : (RForest.word (callbackName rs g A n i r) .nil).Ok := ok_word (wordB_of (callback_word hg ht A n i r)) ok_nil
    exact ok_word rfl (ok_append h3 (by rust_ok))

include hg ht in
theorem debugMethods_ok {fs : List RForest} (h : rustDebugMethods rs g = .ok fs) : (∀ f ∈ fs, f.Ok) ∧ List.Forall₂ Declares fs (visitorMethods rs g) := by
  unfold rustDebugMethods at h
  obtain ⟨fss, h1, h⟩ := res_bind_ok.mp h
  cases h
  constructor
  · refine ok_flatten (fun e fs hfs y hy => ?_) h1
    obtain ⟨x, _, hx⟩ := mem_mapM hfs y hy
    exact (debugMethod_ok hg ht hx).1
  · unfold visitorMethods
    exact forall₂_flatten (fun e fs hfs => forall₂_mapM (fun x y hy => (debugMethod_ok hg ht hy).2.1) _ hfs) _ h1

/-! ## The file -/

variable {p : GlrProg} {text : List Char} (h : rustGlrFile rs g p = .ok text)

include hg ht h in
/-- the file: a stream, printed -/
theorem glr_file : ∃ methods debug actions gotos reds, rustMethods rs g = .ok methods ∧ rustDebugMethods rs g = .ok debug ∧ p.actions.zipIdx.mapM (rustGlrStateActions g) = .ok actions ∧
    p.gotos.zipIdx.mapM (rustGlrStateGotos g) = .ok gotos ∧ p.reductions.zipIdx.mapM (rustReduction g) = .ok reds ∧
    rRead text = some (glrStream (.join methods) (.join debug) (rUsize p.entry) (.sepComma ((g.nonTerminals.map fun s => rNtV g s.index).map fun w => .word w .nil))
      (.sepComma ((List.range p.reductions.length).map rustRuleIdent)) (.joinComma actions.flatten) (.joinComma gotos.flatten) (.sepComma reds) (.sepComma ((ruleVisits rs g).map rustVisit))) := by
  unfold rustGlrFile at h
  obtain ⟨methods, h1, h⟩ := res_bind_ok.mp h
  obtain ⟨debug, h0, h⟩ := res_bind_ok.mp h
  obtain ⟨actions, h2, h⟩ := res_bind_ok.mp h
  obtain ⟨gotos, h3, h⟩ := res_bind_ok.mp h
  obtain ⟨nts, h4, h⟩ := res_bind_ok.mp h
  obtain ⟨reds, h5, h⟩ := res_bind_ok.mp h
  simp only [Except.ok.injEq] at h
  subst h
  refine ⟨methods, debug, actions, gotos, reds, h1, h0, h2, h3, h5, ?_⟩
  have hn : ∀ f ∈ nts, f.Ok := by
    intro f hf
    obtain ⟨s, _, hs⟩ := mem_mapM h4 f hf
    cases s with
    | nt A => exact ntIdent_word hg hs
    | _ => cases hs
  have := glr_read (.join methods) (.join debug) (rUsize p.entry) (.sepComma nts) (.sepComma ((List.range p.reductions.length).map rustRuleIdent)) (.joinComma actions.flatten) (.joinComma gotos.flatten) (.sepComma reds)
    (.sepComma ((ruleVisits rs g).map rustVisit)) (ok_join (methods_ok hg ht h1).1) (ok_join (debugMethods_ok hg ht h0).1) (ok_usize _) (ok_sepComma hn)
    (ok_sepComma (by intro f hf; obtain ⟨i, _, rfl⟩ := List.mem_map.mp hf; exact ok_ruleIdent i))
    (ok_joinComma (ok_flatten (fun x fs => ok_glrStateActions hg) h2)) (ok_joinComma (ok_flatten (fun x fs => ok_glrStateGotos hg) h3))
    (ok_sepComma (fun f hf => by obtain ⟨x, _, hx⟩ := mem_mapM h5 f hf; exact ok_reduction hg hx))
    (ok_sepComma (by intro f hf; obtain ⟨x, hx, rfl⟩ := List.mem_map.mp hf; exact ok_visit hg ht hx))
  rw [this, ntVariants h4]

end

end Verif
