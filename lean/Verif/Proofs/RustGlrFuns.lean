import Verif.Proofs.RustLRReduce
import Verif.Spec.RustGlrText
import Verif.Model.RustGlrText

/-! # The text of the GLR parser: functions that depend on the grammar -/

set_option autoImplicit false

namespace Verif

variable {T : Type}

section
variable (variants : List (List Char)) (g : Grammar)

/-! ## `next_actions` -/

/-- an arm -/
def glrActionPair (q : Nat) (x : Sym × List LRAction) : List (RPat × List RStmt) :=
  (symVariant variants x.1).toList.map fun w => (.pair (.num q) (.variant "TokenType".toList w), [.tail (rustGlrActions x.2)])

/-- the tokens in the error -/
def glrExpectedList (es : List (Option Nat)) : RForest := .sepComma ((es.map (optVariant variants)).map fun w => rs! "TokenType::" |>.append (.word w .nil))

/-- the error -/
def glrErrTokens (expected : RForest) : RForest := rs! "Err(ParserError::UnexpectedToken { got: next_token, got_data: next_data, expected: vec![#expected], })"

/-- the arms of a state -/
def glrStatePairs (x : (List (Sym × List LRAction) × List (Option Nat)) × Nat) : List (RPat × List RStmt) :=
  x.1.1.flatMap (glrActionPair variants x.2) ++ [(.pair (.num x.2) .wild, [.tail (glrErrTokens (glrExpectedList variants x.1.2))])]

variable {variants g}

theorem reads_glrActionArm (hv : TokNames g variants) (q : Nat) (x : Sym × List LRAction) (fs : List RForest) (h : rustGlrActionArm g q x = .ok fs) :
    List.Forall₂ PairReads fs (glrActionPair variants q x) := by
  obtain ⟨s, a⟩ := x
  have hn : ∀ w : List Char, readPat 5 (.group .paren ((rUsize q).append (.sym [','] (.word "TokenType".toList (.sym "::".toList (.word w .nil))))) .nil) =
      some (.pair (.num q) (.variant "TokenType".toList w)) := by
    intro w
    show some (RPat.pair (wordPat _) _) = _
    rw [wordPat_usize]
  have key : ∀ w : List Char, PairReads (.group .paren ((rUsize q).append (.sym [','] (.word "TokenType".toList (.sym "::".toList (.word w .nil))))) (.sym ['=', '>'] (rustGlrActions a)))
      (.pair (.num q) (.variant "TokenType".toList w), [.tail (rustGlrActions a)]) := by
    intro w n r as hr
    exact rd_arm_expr (n := n + 10) rfl rfl (hn w) rfl hr
  cases s with
  | t a' =>
    simp only [rustGlrActionArm] at h
    obtain ⟨f, h1, h2⟩ := res_bind_ok.mp h
    rw [hv.2 _ _ h1] at h2
    cases h2
    exact .cons (key _) .nil
  | eof =>
    cases h
    refine .cons ?_ .nil
    rw [show tokVariant variants .eof = "EndOfFile".toList from hv.1]
    exact key _
  | nt A => cases h; exact .nil
  | eps => cases h; exact .nil

theorem glr_expected (hv : TokNames g variants) : ∀ (es : List (Option Nat)) {fs : List RForest}, es.mapM (rustGlrExpected g) = .ok fs → RForest.sepComma fs = glrExpectedList variants es := by
  intro es fs h
  have : fs = (es.map (optVariant variants)).map fun w => rs! "TokenType::" |>.append (.word w .nil) := by
    induction es generalizing fs with
    | nil => cases h; rfl
    | cons e es ih =>
      rw [List.mapM_cons] at h
      obtain ⟨f, h1, h⟩ := res_bind_ok.mp h
      obtain ⟨fs', h2, h⟩ := res_bind_ok.mp h
      cases h
      rw [ih h2]
      cases e with
      | some a =>
        simp only [rustGlrExpected] at h1
        obtain ⟨x, h3, h4⟩ := res_bind_ok.mp h1
        rw [hv.2 _ _ h3] at h4
        cases h4
        rfl
      | none =>
        cases h1
        rw [List.map_cons, List.map_cons, show optVariant variants none = "EndOfFile".toList from hv.1]
        rfl
  rw [this]; rfl

theorem reads_glrStateActions (hv : TokNames g variants) (x : (List (Sym × List LRAction) × List (Option Nat)) × Nat) (fs : List RForest) (h : rustGlrStateActions g x = .ok fs) :
    List.Forall₂ PairReads fs (glrStatePairs variants x) := by
  unfold rustGlrStateActions at h
  obtain ⟨arms, h1, h⟩ := res_bind_ok.mp h
  obtain ⟨es, h2, h⟩ := res_bind_ok.mp h
  cases h
  refine List.rel_append (forall₂_flatten (fun y ys hy => reads_glrActionArm hv _ y ys hy) _ h1) (.cons ?_ .nil)
  rw [glr_expected hv _ h2]
  intro n r as hr
  refine rd_arm_expr (n := n + 10) rfl rfl ?_ rfl hr
  show some (RPat.pair (wordPat _) _) = _
  rw [wordPat_usize]; rfl

theorem find_glrAction_arms (q : Nat) (tk : Tok) (l : List (Sym × List LRAction)) (hf : ∀ x ∈ l, SymFits variants x.1) :
    (l.flatMap (glrActionPair variants q)).findSome? (armHit (.pair (.num q) (.variant "TokenType".toList (tokVariant variants tk)))) =
      (tk.sym.bind (fun s => armLookup s l)).map fun a => ([], [.tail (rustGlrActions a)]) := by
  induction l with
  | nil => cases tk.sym <;> rfl
  | cons x l ih =>
    obtain ⟨s, a⟩ := x
    have ih := ih (fun x hx => hf x (List.mem_cons_of_mem _ hx))
    have hs := hf (s, a) List.mem_cons_self
    rw [List.flatMap_cons, List.findSome?_append, ih]
    cases hw : symVariant variants s with
    | none =>
      have hne : ∀ s', tk.sym = some s' → s ≠ s' := by
        rintro s' h rfl
        cases tk <;> simp only [Tok.sym, Option.some.injEq, reduceCtorEq] at h <;> subst h <;> cases hw
      simp only [glrActionPair, hw, Option.toList_none, List.map_nil, List.findSome?_nil, Option.none_or]
      cases ht : tk.sym with
      | none => rfl
      | some s' => simp only [Option.bind_some, armLookup, if_neg (hne s' ht)]
    | some w =>
      have := hs w hw tk
      simp only [glrActionPair, hw, Option.toList_some, List.map_cons, List.map_nil, List.findSome?_cons, List.findSome?_nil]
      by_cases ht : tk.sym = some s
      · rw [this.mpr ht, ht]
        simp [armHit, RPat.matches, armLookup]
      · have hne : ¬ w = tokVariant variants tk := fun e => ht (this.mp e.symm)
        simp only [armHit, RPat.matches, hne, and_false, if_false, if_true, Option.map_none, Option.none_or]
        cases hk : tk.sym with
        | none => rfl
        | some s' =>
          have : s ≠ s' := fun e => ht (by rw [hk, e])
          simp only [Option.bind_some, armLookup, if_neg this]

theorem find_glrStatePairs_ne (q : Nat) (w : List Char) (x : (List (Sym × List LRAction) × List (Option Nat)) × Nat) (h : x.2 ≠ q) :
    (glrStatePairs variants x).findSome? (armHit (.pair (.num q) (.variant "TokenType".toList w))) = none := by
  rw [List.findSome?_eq_none_iff]
  intro y hy
  rcases List.mem_append.mp hy with hy | hy
  · obtain ⟨z, _, hz⟩ := List.mem_flatMap.mp hy
    obtain ⟨w', _, rfl⟩ := List.mem_map.mp hz
    simp [armHit, RPat.matches, h]
  · cases List.mem_singleton.mp hy
    simp [armHit, RPat.matches, h]

theorem readValues_actions (as : List LRAction) : ∀ n, readValues (n + (as.length + 1)) (.joinComma (as.map rustGlrAction)) = some (as.map rActVal) := by
  induction as with
  | nil => intro n; rfl
  | cons a as ih =>
    intro n
    have h := joinComma_cons (rustGlrAction a) (as.map rustGlrAction) .nil
    rw [rf_append_nil, rf_append_nil] at h
    rw [List.map_cons, h, List.length_cons, ← Nat.add_assoc n]
    have : readValues (n + (as.length + 1) + 1) ((rustGlrAction a).append (.sym [','] (.joinComma (as.map rustGlrAction)))) =
        (readValues (n + (as.length + 1)) (.joinComma (as.map rustGlrAction))).bind fun vs => some (rActVal a :: vs) := by
      cases a <;> rfl
    rw [this, ih n]
    rfl

theorem act_glrActions (as : List LRAction) (s : Nat × List Char × T) : rGlrActionMachine.act ((rs! "return").append (rustGlrActions as)) s = .ok (.ret s (.ok (as.map rActVal))) := by
  show (if (rs! "return").append (rustGlrActions as) = (rs! "return").append (rustGlrActions as) then
    (match readValues ((RForest.joinComma (as.map rustGlrAction)).size + 1) (RForest.joinComma (as.map rustGlrAction)) with
      | some a => (Except.ok (ROut.ret s (RGlrReturn.ok a)) : Res (ROut (Nat × List Char × T) (RGlrReturn T))) | none => Except.error Err.panic) else _) = _
  have hs := size_joinComma (as.map rustGlrAction)
  rw [List.length_map] at hs
  obtain ⟨k, hk⟩ : ∃ k, (RForest.joinComma (as.map rustGlrAction)).size + 1 = k + (as.length + 1) := ⟨(RForest.joinComma (as.map rustGlrAction)).size - as.length, by omega⟩
  rw [hk, readValues_actions, if_pos rfl]

theorem act_glrError (es : List (Option Nat)) (s : Nat × List Char × T) : rGlrActionMachine.act ((rs! "return").append (glrErrTokens (glrExpectedList variants es))) s =
    .ok (.ret s (.unexpected s.2.1 s.2.2 (es.map (optVariant variants)))) := by
  show (if (rs! "return").append (glrErrTokens (glrExpectedList variants es)) = (rs! "return").append (glrErrTokens (glrExpectedList variants es)) then
    (match readTokenList (glrExpectedList variants es) with | some ex => (Except.ok (ROut.ret s (RGlrReturn.unexpected s.2.1 s.2.2 ex)) : Res (ROut (Nat × List Char × T) (RGlrReturn T))) | none => Except.error Err.panic) else Except.error Err.panic) = _
  rw [show readTokenList (glrExpectedList variants es) = some (es.map (optVariant variants)) from readTokenList_sep _]
  rw [if_pos rfl]

/-- all arms of `next_actions` -/
def glrActionPairs (variants : List (List Char)) (p : GlrProg) : List (RPat × List RStmt) :=
  p.actions.zipIdx.flatMap (glrStatePairs variants) ++ [(.pair .wild .wild, [.tail (rs! "unreachable!()")])]

/-- what `next_actions` returns, in the text -/
def rGlrResult (variants : List (List Char)) (tk : Tok) (data : T) : GlrActs → Res (RGlrReturn T)
  | .acts l => .ok (.ok (l.map rActVal))
  | .unexpected es => .ok (.unexpected (tokVariant variants tk) data (es.map (optVariant variants)))
  | .panic => .error .panic

theorem call_glrActions (p : GlrProg) (hf : ∀ y ∈ p.actions, ∀ x ∈ y.1, SymFits variants x.1) (q : Nat) (tk : Tok) (data : T) :
    (callR rGlrActionMachine 0 [.tailMatch (rs! "(state, next_token)") ((glrActionPairs variants p).map armOf)] (q, tokVariant variants tk, data)).map (·.2) =
      rGlrResult variants tk data (p.nextActions q tk) := by
  unfold callR
  rw [r_execs_one, r_exec_tailMatch (v := .pair (.num q) (.variant "TokenType".toList (tokVariant variants tk))) _ _ _ rfl, exec_armList]
  unfold glrActionPairs GlrProg.nextActions
  rw [List.findSome?_append, find_state _ _ q (fun x hx => find_glrStatePairs_ne q _ x hx), if_pos (Nat.zero_le _), Nat.sub_zero]
  cases hq : p.actions[q]? with
  | none => rfl
  | some y =>
    obtain ⟨arms, es⟩ := y
    have hfy := hf _ (List.mem_of_getElem? hq)
    simp only [Option.bind_some]
    rw [glrStatePairs, List.findSome?_append, find_glrAction_arms q tk _ hfy]
    cases ha : tk.sym.bind (fun s => armLookup s arms) with
    | some a =>
      simp only [Option.map_some, Option.some_or, r_binds_nil, r_execs_one, r_exec_tail, act_glrActions]
      rfl
    | none =>
      have : ([(RPat.pair (.num q) .wild, [RStmt.tail (glrErrTokens (glrExpectedList variants es))])] : List (RPat × List RStmt)).findSome? (armHit (.pair (.num q) (.variant "TokenType".toList (tokVariant variants tk)))) =
          some ([], [.tail (glrErrTokens (glrExpectedList variants es))]) := by simp [armHit, RPat.matches]
      simp only [Option.map_none, Option.none_or, this, Option.some_or, r_binds_nil, r_execs_one, r_exec_tail, act_glrError]
      rfl

/-! ## `next_goto` -/

/-- an arm -/
def glrGotoPair (variants : List (List Char)) (g : Grammar) (q : Nat) (x : Sym × LRGoto) : List (RPat × List RStmt) :=
  match x.1 with
  | .t a => [(.pair (.num q) (.field "StackSymbol".toList "Terminal".toList "token".toList (.variant "TokenType".toList (tokVariant variants (.tok a)))), [.tail (rustGlrGoto x.2)])]
  | .nt A => [(.pair (.num q) (.field "StackSymbol".toList "NonTerminal".toList "non_terminal".toList (.variant "NonTerminalType".toList (rNtV g A))), [.tail (rustGlrGoto x.2)])]
  | _ => []

/-- the arms of a state -/
def glrGotoPairs (variants : List (List Char)) (g : Grammar) (x : List (Sym × LRGoto) × Nat) : List (RPat × List RStmt) := x.1.flatMap (glrGotoPair variants g x.2)

theorem reads_glrGotoArm (hv : TokNames g variants) (q : Nat) (x : Sym × LRGoto) (fs : List RForest) (h : rustGlrGotoArm g q x = .ok fs) :
    List.Forall₂ PairReads fs (glrGotoPair variants g q x) := by
  obtain ⟨s, a⟩ := x
  cases s with
  | t a' =>
    simp only [rustGlrGotoArm] at h
    obtain ⟨f, h1, h2⟩ := res_bind_ok.mp h
    rw [hv.2 _ _ h1] at h2
    cases h2
    refine .cons ?_ .nil
    intro n r as hr
    cases a <;> refine rd_arm_expr (n := n + 10) rfl rfl ?_ rfl hr <;>
    · show some (RPat.pair (wordPat _) _) = _
      rw [wordPat_usize]; rfl
  | nt A =>
    simp only [rustGlrGotoArm] at h
    obtain ⟨f, h1, h2⟩ := res_bind_ok.mp h
    rw [ntIdent_eq h1] at h2
    cases h2
    refine .cons ?_ .nil
    intro n r as hr
    cases a <;> refine rd_arm_expr (n := n + 10) rfl rfl ?_ rfl hr <;>
    · show some (RPat.pair (wordPat _) _) = _
      rw [wordPat_usize]; rfl
  | eof => cases h; exact .nil
  | eps => cases h; exact .nil

theorem reads_glrStateGotos (hv : TokNames g variants) (x : List (Sym × LRGoto) × Nat) (fs : List RForest) (h : rustGlrStateGotos g x = .ok fs) :
    List.Forall₂ PairReads fs (glrGotoPairs variants g x) := by
  unfold rustGlrStateGotos at h
  obtain ⟨arms, h1, h⟩ := res_bind_ok.mp h
  cases h
  exact forall₂_flatten (fun y ys hy => reads_glrGotoArm hv _ y ys hy) _ h1

theorem find_glrGoto_arms (hnt : NtFits g) (q : Nat) (s : StackSym) (hs : ∀ A, s = .nonTerminal A → Sym.nt A ∈ g.nonTerminals) (l : List (Sym × LRGoto))
    (hf : ∀ x ∈ l, SymFits variants x.1 ∧ ∀ A, x.1 = .nt A → Sym.nt A ∈ g.nonTerminals) (he : ∀ x ∈ l, x.1 ≠ .eof) :
    (l.flatMap (glrGotoPair variants g q)).findSome? (armHit (.pair (.num q) (rStackVal variants g s))) = (s.sym.bind (fun s => armLookup s l)).map fun a => ([], [.tail (rustGlrGoto a)]) := by
  induction l with
  | nil => cases s.sym <;> rfl
  | cons x l ih =>
    obtain ⟨y, a⟩ := x
    have ih := ih (fun x hx => hf x (List.mem_cons_of_mem _ hx)) (fun x hx => he x (List.mem_cons_of_mem _ hx))
    obtain ⟨h1, h2⟩ := hf (y, a) List.mem_cons_self
    rw [List.flatMap_cons, List.findSome?_append, ih]
    by_cases he : s.sym = some y
    · have : (glrGotoPair variants g q (y, a)).findSome? (armHit (.pair (.num q) (rStackVal variants g s))) = some ([], [.tail (rustGlrGoto a)]) := by
        cases s with
        | terminal t => cases t <;> simp only [StackSym.sym, Option.some.injEq, reduceCtorEq] at he; subst he; simp [glrGotoPair, rStackVal, armHit, RPat.matches]
        | nonTerminal A => simp only [StackSym.sym, Option.some.injEq] at he; subst he; simp [glrGotoPair, rStackVal, armHit, RPat.matches]
        | state q' => simp [StackSym.sym] at he
      rw [this, he]
      simp [armLookup]
    · have : (glrGotoPair variants g q (y, a)).findSome? (armHit (.pair (.num q) (rStackVal variants g s))) = none := by
        cases y with
        | eof => rfl
        | eps => rfl
        | t b =>
          cases s with
          | terminal t =>
            have hne : ¬ tokVariant variants (.tok b) = tokVariant variants t := by
              intro e
              have := (h1 _ rfl t).mp e.symm
              cases t <;> simp only [Tok.sym, Option.some.injEq, reduceCtorEq, Sym.t.injEq] at this
              subst this; exact he rfl
            simp [glrGotoPair, rStackVal, armHit, RPat.matches, hne]
          | nonTerminal A => simp [glrGotoPair, rStackVal, armHit, RPat.matches]
          | state q' => simp [glrGotoPair, rStackVal, armHit, RPat.matches]
        | nt B =>
          cases s with
          | terminal t => simp [glrGotoPair, rStackVal, armHit, RPat.matches]
          | nonTerminal A =>
            have hne : ¬ rNtV g B = rNtV g A := by
              intro e
              have := hnt B A (h2 B rfl) (hs A rfl) e
              subst this; exact he rfl
            simp [glrGotoPair, rStackVal, armHit, RPat.matches, hne]
          | state q' => simp [glrGotoPair, rStackVal, armHit, RPat.matches]
      rw [this, Option.none_or]
      cases hk : s.sym with
      | none => rfl
      | some s' =>
        have : y ≠ s' := fun e => he (by rw [hk, e])
        simp only [Option.bind_some, armLookup, if_neg this]

theorem find_glrGotoPairs_ne (q : Nat) (v : RVal) (x : List (Sym × LRGoto) × Nat) (h : x.2 ≠ q) : (glrGotoPairs variants g x).findSome? (armHit (.pair (.num q) v)) = none := by
  rw [List.findSome?_eq_none_iff]
  intro y hy
  obtain ⟨⟨s, a⟩, _, hz⟩ := List.mem_flatMap.mp hy
  cases s <;> simp only [glrGotoPair, List.mem_singleton, List.not_mem_nil] at hz <;> subst hz <;> simp [armHit, RPat.matches, h]

/-- all arms of `next_goto` -/
def glrAllGotos (variants : List (List Char)) (g : Grammar) (p : GlrProg) : List (RPat × List RStmt) :=
  p.gotos.zipIdx.flatMap (glrGotoPairs variants g) ++ [(.pair .wild .wild, [.tail (rs! "None")])]

theorem act_glrGoto (a : LRGoto) (s : Nat × RVal) : rGlrGotoMachine.act ((rs! "return").append (rustGlrGoto a)) s = .ok (.ret s (some (rGotoVal a))) := by
  cases a with
  | accept => rfl
  | state q =>
    show (if (rs! "return").append (rustGlrGoto (.state q)) = (rs! "return").append (rustGlrGoto (.state q)) then
      (match (readValue 4 (rUsize q)).map (RVal.field "Goto".toList "State".toList "state_id".toList) with | some v => (Except.ok (ROut.ret s (some v)) : Res (ROut (Nat × RVal) (Option RVal))) | none => Except.error Err.panic) else _) = _
    rw [readValue_num, if_pos rfl]; rfl

theorem call_glrGoto (p : GlrProg) (hnt : NtFits g) (hf : ∀ y ∈ p.gotos, ∀ x ∈ y, SymFits variants x.1 ∧ ∀ A, x.1 = .nt A → Sym.nt A ∈ g.nonTerminals) (he : ∀ y ∈ p.gotos, ∀ x ∈ y, x.1 ≠ .eof)
    (q : Nat) (s : StackSym) (hs : ∀ A, s = .nonTerminal A → Sym.nt A ∈ g.nonTerminals) :
    (callR rGlrGotoMachine 0 [.tailMatch (rs! "(state, symbol)") ((glrAllGotos variants g p).map armOf)] (q, rStackVal variants g s)).map (·.2) = .ok ((p.nextGoto q s).map rGotoVal) := by
  unfold callR
  rw [r_execs_one, r_exec_tailMatch (v := .pair (.num q) (rStackVal variants g s)) _ _ _ rfl, exec_armList]
  unfold glrAllGotos GlrProg.nextGoto
  rw [List.findSome?_append, find_state _ _ q (fun x hx => find_glrGotoPairs_ne q _ x hx), if_pos (Nat.zero_le _), Nat.sub_zero]
  cases hq : p.gotos[q]? with
  | none => rfl
  | some y =>
    simp only [Option.bind_some]
    rw [glrGotoPairs, find_glrGoto_arms hnt q s hs _ (hf _ (List.mem_of_getElem? hq)) (he _ (List.mem_of_getElem? hq))]
    cases ha : s.sym.bind (fun s => armLookup s y) with
    | some a =>
      simp only [Option.map_some, Option.some_or, r_binds_nil, r_execs_one, r_exec_tail, act_glrGoto]
      rfl
    | none => rfl

/-! ## `get_rule_reduction` and `do_visit` -/

theorem act_glrReduction (g : Grammar) (x : Nat × Nat) (s : RVal) (variants : List (List Char)) :
    rRuleMachine.act ((rs! "return").append (rRedTokens g x)) s = .ok (.ret s (.pair (.num x.1) (rStackVal variants g (.nonTerminal x.2)))) := by
  have : readValue 5 (rRedTokens g x) = some (.pair (.num x.1) (rStackVal variants g (.nonTerminal x.2))) := by
    show (readValue 4 (rUsize x.1)).bind (fun a => some (RVal.pair a (rStackVal variants g (.nonTerminal x.2)))) = _
    rw [readValue_num]; rfl
  show (if "return".toList = "return".toList then (match readValue 5 (rRedTokens g x) with | some v => (Except.ok (ROut.ret s v) : Res (ROut RVal RVal)) | none => Except.error Err.panic) else Except.error Err.panic) = _
  rw [this, if_pos rfl]

theorem call_glrReduction (variants : List (List Char)) (g : Grammar) (reds : List (Nat × Nat)) (i : Nat) :
    (callR rRuleMachine 0 [.tailMatch (rs! "rule") ((reds.zipIdx.map (redPair g)).map armOf)] (rRuleVal i)).map (·.2) =
      match reds[i]? with
      | none => .error .panic
      | some (k, A) => .ok (.pair (.num k) (rStackVal variants g (.nonTerminal A))) := by
  unfold callR
  rw [r_execs_one, r_exec_tailMatch (v := rRuleVal i) _ _ _ rfl, exec_armList, find_red, if_pos (Nat.zero_le _), Nat.sub_zero]
  cases hr : reds[i]? with
  | none => rfl
  | some x =>
    simp only [Option.map_some, r_binds_nil, r_execs_one, r_exec_tail, act_glrReduction g _ _ variants]
    rfl

theorem act_glrVisit (name : List Char) (s : RVal) : rVisitMachine.act ((rs! "return").append (rVisitTokens name)) s = .ok (.ret s name) := by
  show (if (rs! "return").append (rVisitTokens name) = (rs! "return").append (rVisitTokens name) then (Except.ok (ROut.ret s name) : Res (ROut RVal (List Char))) else Except.error Err.panic) = _
  rw [if_pos rfl]

theorem call_glrVisit (visits : List (Nat × List Char)) (i : Nat) :
    (callR rVisitMachine 0 [.tailMatch (rs! "rule") ((visits.map visitPair).map armOf)] (rRuleVal i)).map (·.2) =
      match visits.find? (fun x => x.1 = i) with
      | none => .error .panic
      | some x => .ok x.2 := by
  unfold callR
  rw [r_execs_one, r_exec_tailMatch (v := rRuleVal i) _ _ _ rfl, exec_armList, find_visit]
  cases hr : visits.find? (fun x => decide (x.1 = i)) with
  | none => rfl
  | some x =>
    simp only [Option.map_some, r_binds_nil, r_execs_one, r_exec_tail, act_glrVisit]
    rfl

end

end Verif
