import Verif.Spec.CppVisitor
import Verif.Proofs.CppLRNames
import Verif.Proofs.Display

/-! # The class of the C++ visitor -/

set_option autoImplicit false

namespace Verif

variable {g : Grammar}

/-! ## Comments -/

/-- chars that may stand in a `//` comment -/
def lineB (c : Char) : Bool := decide (c ≠ '\n') && decide (c ≠ '\\')

theorem line_word {w : List Char} (h : IsWord w) : w.all lineB = true := by
  rw [List.all_eq_true]
  intro c hc
  have := h c hc
  simp only [lineB, Bool.and_eq_true, decide_eq_true_eq]
  constructor
  · rintro rfl; exact absurd this (by decide)
  · rintro rfl; exact absurd this (by decide)

theorem line_symbol (hg : g.WordNames) {s : Sym} {w : List Char} (h : g.symbolName s = .ok w) : w.all lineB = true := by
  cases s with
  | t a =>
    simp only [Grammar.symbolName, Grammar.tokenName] at h
    cases hn : mget? (Sym.t a) g.tokens with
    | none => rw [hn] at h; cases h
    | some name =>
      rw [hn] at h
      cases h
      simp only [List.all_append, line_word (hg.1 _ (mget?_mem hn)), line_word (isWord_decimal a)]
      decide
  | nt A =>
    simp only [Grammar.symbolName] at h
    cases hn : g.productionName (.nt A) with
    | none =>
      rw [hn] at h
      cases h
      simp only [List.all_append, line_word (isWord_decimal A)]
      decide
    | some name =>
      rw [hn] at h
      cases h
      simp only [List.all_append, line_word (hg.2 _ (mget?_mem hn)), line_word (isWord_decimal A)]
      decide
  | eps => cases h; decide
  | eof => cases h; decide

theorem line_intercalate {ws : List (List Char)} (h : ∀ w ∈ ws, w.all lineB = true) : (List.intercalate [' '] ws).all lineB = true := by
  induction ws with
  | nil => rfl
  | cons w ws ih =>
    cases ws with
    | nil => simpa [List.intercalate] using h w (by simp)
    | cons w' ws =>
      rw [show List.intercalate [' '] (w :: w' :: ws) = w ++ ([' '] ++ List.intercalate [' '] (w' :: ws)) by simp [List.intercalate, List.intersperse]]
      rw [List.all_append, List.all_append, h w (by simp), ih (fun x hx => h x (by simp [hx]))]
      decide

theorem line_rule (hg : g.WordNames) {r : Rule} {w : List Char} (h : ruleText g r = .ok w) : w.all lineB = true := by
  unfold ruleText symbolNames at h
  obtain ⟨rhs, h1, h⟩ := res_bind_ok.mp h
  obtain ⟨ws, h2, h3⟩ := res_bind_ok.mp h1
  obtain ⟨lhs, h4, h⟩ := res_bind_ok.mp h
  cases h
  cases h3
  rw [List.all_append, List.all_append, line_symbol hg h4, line_intercalate]
  · decide
  · intro w hw
    obtain ⟨s, _, hs⟩ := mapM_res_mem h2 hw
    exact line_symbol hg hs

/-! ## Methods -/

/-- tokens of a method -/
def methodToks (name : List Char) : List CTok := [.word "virtual".toList, .word "void".toList, .word name, .sym ['('], .sym [')'], .sym ['='], .word ['0'], .sym [';']]

theorem cppCallback_word (hg : g.WordNames) (A n i : Nat) : IsWord (cppCallbackName g A n i) ∧ cppCallbackName g A n i ≠ [] := by
  have hnt : IsWord (ntName g A) := by
    unfold ntName
    cases hn : g.productionName (.nt A) with
    | some n => exact hg.2 _ (mget?_mem hn)
    | none => exact isWord_append (by unfold IsWord; decide) (isWord_decimal A)
  unfold cppCallbackName
  split
  · exact ⟨isWord_append (isWord_append (isWord_append (by unfold IsWord; decide) hnt) (by unfold IsWord; decide)) (isWord_decimal _), by simp⟩
  · exact ⟨isWord_append (by unfold IsWord; decide) hnt, by simp⟩

theorem method_lexes (hg : g.WordNames) {A n i r : Nat} {w : List Char} (h : cppMethodText g A n i r = .ok w) : Lexes w (methodToks (cppCallbackName g A n i)) := by
  unfold cppMethodText at h
  cases hr : g.rules[r]? with
  | none => rw [hr] at h; cases h
  | some rule =>
    rw [hr] at h
    obtain ⟨text, h1, h⟩ := res_bind_ok.mp h
    cases h
    have hl := line_rule hg h1
    rw [List.all_eq_true] at hl
    have h2 : Lexes ('/' :: '/' :: ((' ' :: text) ++ ['\n'])) [] := by
      refine Lexes.comment ?_ ?_
      · intro hm
        rcases List.mem_cons.mp hm with hm | hm
        · exact absurd hm (by decide)
        · exact absurd (hl _ hm) (by decide)
      · intro hm
        rcases List.mem_cons.mp (List.mem_of_getLast? hm) with hm | hm
        · exact absurd hm (by decide)
        · exact absurd (hl _ hm) (by decide)
    obtain ⟨h3, h4⟩ := cppCallback_word hg A n i
    have h5 : Lexes ("virtual void ".toList ++ (cppCallbackName g A n i ++ "() = 0;\n".toList)) (methodToks (cppCallbackName g A n i)) :=
      Lexes.wordIn (x := [.word "virtual".toList, .word "void".toList]) (by unfold Lexes; decide +kernel) h4 h3 (c := '(') (by decide) (by unfold Lexes; decide +kernel)
    exact h2.append h5

theorem methods_lexes (hg : g.WordNames) {ms : List (List Char)} (h : cppMethodsText g = .ok ms) : Lexes ms.flatten ((cppVisitorMethods g).flatMap methodToks) := by
  unfold cppMethodsText at h
  obtain ⟨mss, h1, e⟩ := res_bind_ok.mp h
  cases e
  clear h
  unfold cppVisitorMethods
  revert h1
  generalize rulesByNt g = l
  intro h1
  induction l generalizing mss with
  | nil => cases h1; exact Lexes.nil
  | cons e l ih =>
    rw [List.mapM_cons] at h1
    obtain ⟨m, h2, h1'⟩ := res_bind_ok.mp h1
    obtain ⟨mss', h3, e1⟩ := res_bind_ok.mp h1'
    cases e1
    clear h1 h1'
    rw [List.flatten_cons, List.flatten_append, List.flatMap_cons, List.flatMap_append]
    refine Lexes.append ?_ (ih mss' h3)
    revert h2
    generalize e.2.length = n
    generalize e.2.zipIdx = rs
    intro h2
    clear ih h3
    induction rs generalizing m with
    | nil => cases h2; exact Lexes.nil
    | cons r rs ih =>
      rw [List.mapM_cons] at h2
      obtain ⟨w, h4, h2'⟩ := res_bind_ok.mp h2
      obtain ⟨ws, h5, e2⟩ := res_bind_ok.mp h2'
      cases e2
      clear h2 h2'
      rw [List.flatten_cons, List.map_cons, List.flatMap_cons]
      exact (method_lexes hg h4).append (ih ws h5)

/-! ## The file -/

def visHA : List Char := tplBefore lrVisitorHeaderTemplate.text
def visHB : List Char := tplAfter lrVisitorHeaderTemplate.text

theorem visitor_file {t : List Char × WriteStatus} (h : cppVisitorFile g = .ok t) : ∃ ms, cppMethodsText g = .ok ms ∧ t = (visHA ++ (ms.flatten ++ visHB), .ok) := by
  unfold cppVisitorFile at h
  obtain ⟨ms, h1, h⟩ := res_bind_ok.mp h
  refine ⟨ms, h1, ?_⟩
  have e := Except.ok.inj h
  rw [← e]
  exact template_one _ _ _ (by decide +kernel) (by decide +kernel) (by decide +kernel) (by decide +kernel)

theorem visHA_lexes : Lexes visHA (tplToks visHA) := by unfold Lexes; decide +kernel
theorem visHB_lexes : Lexes visHB [.sym ['}'], .sym [';'], .sym ['}']] := by unfold Lexes; decide +kernel

/-- `shift(lexer::TokenType tk_type, T data)` -/
def shiftMethod : CppMethod := ⟨"shift".toList, phrase "lexer::TokenType tk_type, T data"⟩

theorem visHA_after : afterPhrase (phrase "template <class T> class Visitor { public:") (tplToks visHA) = some (phrase "virtual void shift(lexer::TokenType tk_type, T data) = 0;") := by decide +kernel

theorem readMethods_names (names : List (List Char)) (n : Nat) (hn : names.length ≤ n) (tail : List CTok) :
    readMethods n (names.flatMap methodToks ++ .sym ['}'] :: .sym [';'] :: tail) = some (names.map fun x => ⟨x, []⟩) := by
  induction names generalizing n with
  | nil => cases n <;> rfl
  | cons x names ih =>
    cases n with
    | zero => simp at hn
    | succ n =>
      have := ih n (by simpa using hn)
      rw [List.flatMap_cons, List.append_assoc]
      show readMethods (n + 1) (.word "virtual".toList :: .word "void".toList :: .word x :: .sym ['('] :: .sym [')'] :: .sym ['='] :: .word ['0'] :: .sym [';'] ::
        (names.flatMap methodToks ++ .sym ['}'] :: .sym [';'] :: tail)) = _
      rw [readMethods, if_pos ⟨rfl, rfl⟩]
      show (readMethods n (names.flatMap methodToks ++ .sym ['}'] :: .sym [';'] :: tail)).bind _ = _
      rw [this]
      rfl

theorem methodToks_length (names : List (List Char)) : (names.flatMap methodToks).length = 8 * names.length := by
  induction names with
  | nil => rfl
  | cons x names ih => rw [List.flatMap_cons, List.length_append, ih, List.length_cons]; simp only [methodToks, List.length_cons, List.length_nil]; omega

theorem visitor_reads (hg : g.WordNames) {t : List Char × WriteStatus} (h : cppVisitorFile g = .ok t) :
    readVisitor t.1 = some (shiftMethod :: (cppVisitorMethods g).map fun x => ⟨x, []⟩) := by
  obtain ⟨ms, h1, rfl⟩ := visitor_file h
  have h2 := methods_lexes hg h1
  unfold readVisitor
  rw [cLex_of (visHA_lexes.append (h2.append visHB_lexes))]
  simp only [Option.bind_eq_bind, Option.bind_some]
  rw [afterPhrase_append _ visHA_after]
  simp only [Option.bind_some]
  have h3 : ∀ n, (cppVisitorMethods g).length ≤ n → readMethods (n + 1) (phrase "virtual void shift(lexer::TokenType tk_type, T data) = 0;" ++
      ((cppVisitorMethods g).flatMap methodToks ++ [.sym ['}'], .sym [';'], .sym ['}']])) = some (shiftMethod :: (cppVisitorMethods g).map fun x => ⟨x, []⟩) := by
    intro n hn
    have := readMethods_names (cppVisitorMethods g) n hn [.sym ['}']]
    have hp : phrase "virtual void shift(lexer::TokenType tk_type, T data) = 0;" = .word "virtual".toList :: .word "void".toList :: .word "shift".toList :: .sym ['('] ::
      .word "lexer".toList :: .sym [':', ':'] :: .word "TokenType".toList :: .word "tk_type".toList :: .sym [','] :: .word ['T'] :: .word "data".toList :: .sym [')'] :: .sym ['='] ::
        .word ['0'] :: [.sym [';']] := by decide +kernel
    have hs : shiftMethod = ⟨"shift".toList, [.word "lexer".toList, .sym [':', ':'], .word "TokenType".toList, .word "tk_type".toList, .sym [','], .word ['T'], .word "data".toList]⟩ := by decide +kernel
    rw [hp, hs]
    simp only [List.cons_append, List.nil_append]
    rw [readMethods, if_pos ⟨rfl, rfl⟩]
    show (readMethods n ((cppVisitorMethods g).flatMap methodToks ++ .sym ['}'] :: .sym [';'] :: [.sym ['}']])).bind _ = _
    rw [this]
    rfl
  have hp : (phrase "virtual void shift(lexer::TokenType tk_type, T data) = 0;").length = 15 := by decide +kernel
  obtain ⟨m, hm⟩ : ∃ m, (cppVisitorMethods g).length ≤ m ∧ (phrase "virtual void shift(lexer::TokenType tk_type, T data) = 0;" ++
      ((cppVisitorMethods g).flatMap methodToks ++ [CTok.sym ['}'], CTok.sym [';'], CTok.sym ['}']])).length = m + 1 := by
    refine ⟨17 + 8 * (cppVisitorMethods g).length, by omega, ?_⟩
    simp only [List.length_append, methodToks_length, hp, List.length_cons, List.length_nil]
    omega
  rw [hm.2, h3 m hm.1]

/-! ## Calls -/

theorem simplesL_append (a b : List CStmt) : CStmt.simplesL (a ++ b) = CStmt.simplesL a ++ CStmt.simplesL b := by
  induction a with
  | nil => rfl
  | cons s a ih => simp [CStmt.simplesL, ih]

theorem called_visit (calls : List (Nat × List Char)) : (CStmt.simplesL (visitStmts calls)).flatMap calledOn = calls.map (·.2) := by
  have k1 : calledOn (phrase "std::terminate()") = [] := by decide +kernel
  have k2 : calledOn (phrase "return") = [] := by decide +kernel
  have h : (CStmt.simplesL ((calls.map fun c => (numLabel c.1, visitBody c.2)).flatMap fun c => c.1 :: c.2)).flatMap calledOn = calls.map (·.2) := by
    induction calls with
    | nil => rfl
    | cons c calls ih =>
      rw [List.map_cons, List.flatMap_cons, simplesL_append, List.flatMap_append, ih]
      simp [CStmt.simplesL, CStmt.simples, numLabel, visitBody, k2, calledOn]
  simp only [visitStmts, swBody, CStmt.simplesL, CStmt.simples, simplesL_append, List.flatMap_append, h, List.flatMap_cons, List.flatMap_nil, List.append_nil, List.nil_append, k1]

theorem called_parse (entry : Nat) : (CStmt.simplesL (parseStmts entry)).flatMap calledOn = ["shift".toList] := by
  have k1 : calledOn (entryToks entry) = [] := by
    unfold entryToks
    simp [calledOn]
  have k2 : calledOn (phrase "std::queue<std::pair<lexer::TokenType, T>> lookahead") = [] := by decide +kernel
  have k3 : calledOn (phrase "lookahead.push(this->token_function())") = [] := by decide +kernel
  have k4 : calledOn (phrase "std::vector<Symbol> parse_stack") = [] := by decide +kernel
  have k5 : calledOn (phrase "parse_stack.push_back(entry_symbol)") = [] := by decide +kernel
  have k6 : (CStmt.simplesL parseRound).flatMap calledOn = ["shift".toList] := by decide +kernel
  simp only [parseStmts, CStmt.simplesL, CStmt.simples, List.flatMap_append, List.flatMap_cons, List.flatMap_nil, List.append_nil, List.nil_append, k1, k2, k3, k4, k5, k6]

/-! ## Each rule -/

theorem mapM_mem_of {α β : Type} {f : α → Res β} {l : List α} {ys : List β} (h : l.mapM f = .ok ys) {a : α} (ha : a ∈ l) : ∃ y, f a = .ok y ∧ y ∈ ys := by
  induction l generalizing ys with
  | nil => simp at ha
  | cons x l ih =>
    rw [List.mapM_cons] at h
    obtain ⟨y, h1, h⟩ := res_bind_ok.mp h
    obtain ⟨ys', h2, h⟩ := res_bind_ok.mp h
    cases h
    rcases List.mem_cons.mp ha with rfl | ha
    · exact ⟨y, h1, by simp⟩
    · obtain ⟨y', h3, h4⟩ := ih h2 ha
      exact ⟨y', h3, by simp [h4]⟩

theorem mem_flatten_split {ms : List (List Char)} {m : List Char} (h : m ∈ ms) : ∃ a b, ms.flatten = a ++ m ++ b := by
  obtain ⟨x, y, rfl⟩ := List.append_of_mem h
  exact ⟨x.flatten, y.flatten, by simp⟩

theorem method_written {r : Nat} {name : List Char} (hc : IsCppCallback g r name) {ms : List (List Char)} (h : cppMethodsText g = .ok ms) :
    ∃ rule text a b, g.rules[r]? = some rule ∧ ruleText g rule = .ok text ∧
      ms.flatten = a ++ (("// ".toList ++ (text ++ "\n".toList)) ++ ("virtual void ".toList ++ (name ++ "() = 0;\n".toList))) ++ b := by
  have h1 : (r, name) ∈ ruleVisits noTags g := visits_callback.mpr ((cpp_of_callback (tagOf_noTags g r)).mpr hc)
  unfold ruleVisits at h1
  obtain ⟨e, he, h1⟩ := List.mem_flatMap.mp h1
  obtain ⟨⟨r', i⟩, hr, e1⟩ := List.mem_map.mp h1
  simp only [Prod.mk.injEq] at e1
  obtain ⟨rfl, rfl⟩ := e1
  have hn : callbackName noTags g e.1 e.2.length i r' = cppCallbackName g e.1 e.2.length i := by
    unfold cppCallbackName callbackName
    rw [tagOf_noTags]
  rw [hn]
  unfold cppMethodsText at h
  obtain ⟨mss, h2, h⟩ := res_bind_ok.mp h
  cases h
  obtain ⟨y, h3, h4⟩ := mapM_mem_of h2 he
  obtain ⟨w, h5, h6⟩ := mapM_mem_of h3 hr
  unfold cppMethodText at h5
  cases hx : g.rules[r']? with
  | none => simp only [hx] at h5; cases h5
  | some rule =>
    simp only [hx] at h5
    obtain ⟨text, h7, h5⟩ := res_bind_ok.mp h5
    cases h5
    obtain ⟨a, b, e⟩ := mem_flatten_split (List.mem_flatten.mpr ⟨y, h4, h6⟩)
    exact ⟨rule, text, a, b, rfl, h7, e⟩

theorem cppVisitorFile_ok (wf : g.WF) : ∃ t, cppVisitorFile g = .ok t := by
  have h : ∀ e ∈ rulesByNt g, ∃ ms, (e.2.zipIdx.mapM fun r => cppMethodText g e.1 e.2.length r.2 r.1) = .ok ms := by
    intro e he
    apply mapM_total
    rintro ⟨r, i⟩ hr
    have h1 : (r, callbackName noTags g e.1 e.2.length i r) ∈ ruleVisits noTags g := List.mem_flatMap.mpr ⟨e, he, List.mem_map.mpr ⟨(r, i), hr, rfl⟩⟩
    obtain ⟨rule, h2, _⟩ := visits_callback.mp h1
    obtain ⟨text, h3⟩ := ruleText_ok wf (List.mem_of_getElem? h2)
    refine ⟨("// ".toList ++ (text ++ "\n".toList)) ++ ("virtual void ".toList ++ (cppCallbackName g e.1 e.2.length i ++ "() = 0;\n".toList)), ?_⟩
    unfold cppMethodText
    simp only [h2, h3]
    rfl
  obtain ⟨mss, h1⟩ := mapM_total _ h
  unfold cppVisitorFile cppMethodsText
  rw [h1]
  exact ⟨_, rfl⟩

end Verif
