import Verif.Proofs.RustLRArms
import Verif.Proofs.LRArms

/-! # The text of `parser.rs`: `next_action` and `next_goto` -/

set_option autoImplicit false

namespace Verif

theorem ntIdent_eq {g : Grammar} {A : Nat} {f : RForest} (h : rustNtIdent g A = .ok f) : f = .word (rNtV g A) .nil := by
  unfold rustNtIdent at h
  obtain ⟨w, h1, h2⟩ := res_bind_ok.mp h
  cases h2
  unfold rNtV
  rw [h1]

/-- the variants fit the names of the grammar: a terminal with a name has the variant of that name -/
def TokNames (g : Grammar) (variants : List (List Char)) : Prop :=
  variants.getD 0 [] = "EndOfFile".toList ∧ ∀ a f, rustTokenIdent g a = .ok f → f = .word (tokVariant variants (.tok a)) .nil

/-- a symbol has a variant that no other token has -/
def SymFits (variants : List (List Char)) (s : Sym) : Prop := ∀ w, symVariant variants s = some w → ∀ tk, tokVariant variants tk = w ↔ tk.sym = some s

theorem readValue_num (n k : Nat) : readValue (n + 1) (rUsize k) = some (.num k) := by
  unfold rUsize readValue
  rw [rNumber_usize]; rfl

theorem readValue_action (a : LRAction) : readValue 5 (okPart ((rs! "return").append (rustAction a))) = some (rActVal a) := by cases a <;> rfl

section
variable (variants : List (List Char)) (g : Grammar)

/-! ## `next_action` -/

/-- an arm -/
def actionPair (q : Nat) (x : Sym × LRAction) : List (RPat × List RStmt) :=
  (symVariant variants x.1).toList.map fun w => (.pair (.num q) (.variant "TokenType".toList w), [.tail (rustAction x.2)])

/-- the tokens in the error -/
def rExpectedList (es : List Sym) : RForest := .sepComma ((es.filterMap (symVariant variants)).map fun w => rs! "TokenType::" |>.append (.word w .nil))

/-- the error -/
def rErrTokens (expected : RForest) : RForest := rs! "Err(ParserError::UnexpectedToken { got: next_token, expected: vec![#expected] })"

/-- the arms of a state -/
def statePairs (x : (List (Sym × LRAction) × List Sym) × Nat) : List (RPat × List RStmt) :=
  x.1.1.flatMap (actionPair variants x.2) ++ [(.pair (.num x.2) .wild, [.tail (rErrTokens (rExpectedList variants x.1.2))])]

variable {variants g}

theorem reads_actionArm (hv : TokNames g variants) (q : Nat) (x : Sym × LRAction) (fs : List RForest) (h : rustActionArm g q x = .ok fs) :
    List.Forall₂ PairReads fs (actionPair variants q x) := by
  obtain ⟨s, a⟩ := x
  have hn : ∀ w : List Char, readPat 5 (.group .paren ((rUsize q).append (.sym [','] (.word "TokenType".toList (.sym "::".toList (.word w .nil))))) .nil) =
      some (.pair (.num q) (.variant "TokenType".toList w)) := by
    intro w
    show some (RPat.pair (wordPat _) _) = _
    rw [wordPat_usize]
  have key : ∀ w : List Char, PairReads (.group .paren ((rUsize q).append (.sym [','] (.word "TokenType".toList (.sym "::".toList (.word w .nil))))) (.sym ['=', '>'] (rustAction a)))
      (.pair (.num q) (.variant "TokenType".toList w), [.tail (rustAction a)]) := by
    intro w n r as hr
    cases a <;> exact rd_arm_expr (n := n + 10) rfl rfl (hn w) rfl hr
  cases s with
  | t a' =>
    simp only [rustActionArm] at h
    obtain ⟨f, h1, h2⟩ := res_bind_ok.mp h
    rw [hv.2 _ _ h1] at h2
    cases h2
    exact .cons (key _) .nil
  | eof =>
    cases h
    refine .cons ?_ .nil
    rw [show tokVariant variants .eof = "EndOfFile".toList from hv.1]
    exact key _
  | nt A => cases h; exact .nil
  | eps => cases h; exact .nil

theorem expected_list (hv : TokNames g variants) : ∀ (es : List Sym) {fs : List (List RForest)}, es.mapM (rustExpected g) = .ok fs → RForest.sepComma fs.flatten = rExpectedList variants es := by
  intro es fs h
  have : fs.flatten = (es.filterMap (symVariant variants)).map fun w => rs! "TokenType::" |>.append (.word w .nil) := by
    induction es generalizing fs with
    | nil => cases h; rfl
    | cons e es ih =>
      rw [List.mapM_cons] at h
      obtain ⟨f, h1, h⟩ := res_bind_ok.mp h
      obtain ⟨fs', h2, h⟩ := res_bind_ok.mp h
      cases h
      rw [List.flatten_cons, ih h2]
      cases e with
      | t a =>
        simp only [rustExpected] at h1
        obtain ⟨x, h3, h4⟩ := res_bind_ok.mp h1
        rw [hv.2 _ _ h3] at h4
        cases h4
        rfl
      | eof =>
        cases h1
        rw [List.filterMap_cons, show symVariant variants .eof = some "EndOfFile".toList from congrArg some hv.1]
        rfl
      | nt A => cases h1; rfl
      | eps => cases h1; rfl
  rw [this]; rfl

theorem reads_stateActions (hv : TokNames g variants) (x : (List (Sym × LRAction) × List Sym) × Nat) (fs : List RForest) (h : rustStateActions g x = .ok fs) :
    List.Forall₂ PairReads fs (statePairs variants x) := by
  unfold rustStateActions at h
  obtain ⟨arms, h1, h⟩ := res_bind_ok.mp h
  obtain ⟨es, h2, h⟩ := res_bind_ok.mp h
  cases h
  refine List.rel_append (forall₂_flatten (fun y ys hy => reads_actionArm hv _ y ys hy) _ h1) (.cons ?_ .nil)
  rw [expected_list hv _ h2]
  intro n r as hr
  refine rd_arm_expr (n := n + 10) rfl rfl ?_ rfl hr
  show some (RPat.pair (wordPat _) _) = _
  rw [wordPat_usize]; rfl

theorem find_action_arms (q : Nat) (tk : Tok) (l : List (Sym × LRAction)) (hf : ∀ x ∈ l, SymFits variants x.1) :
    (l.flatMap (actionPair variants q)).findSome? (armHit (.pair (.num q) (.variant "TokenType".toList (tokVariant variants tk)))) =
      (tk.sym.bind (fun s => armLookup s l)).map fun a => ([], [.tail (rustAction a)]) := by
  induction l with
  | nil => cases tk.sym <;> rfl
  | cons x l ih =>
    obtain ⟨s, a⟩ := x
    have ih := ih (fun x hx => hf x (List.mem_cons_of_mem _ hx))
    have hs := hf (s, a) List.mem_cons_self
    rw [List.flatMap_cons, List.findSome?_append, ih]
    cases hw : symVariant variants s with
    | none =>
      have hne : ∀ s', tk.sym = some s' → s ≠ s' := by
        rintro s' h rfl
        cases tk <;> simp only [Tok.sym, Option.some.injEq, reduceCtorEq] at h <;> subst h <;> cases hw
      simp only [actionPair, hw, Option.toList_none, List.map_nil, List.findSome?_nil, Option.none_or]
      cases ht : tk.sym with
      | none => rfl
      | some s' => simp only [Option.bind_some, armLookup, if_neg (hne s' ht)]
    | some w =>
      have := hs w hw tk
      simp only [actionPair, hw, Option.toList_some, List.map_cons, List.map_nil, List.findSome?_cons, List.findSome?_nil]
      by_cases ht : tk.sym = some s
      · rw [this.mpr ht, ht]
        simp [armHit, RPat.matches, armLookup]
      · have hne : ¬ w = tokVariant variants tk := fun e => ht (this.mp e.symm)
        simp only [armHit, RPat.matches, hne, and_false, if_false, if_true, Option.map_none, Option.none_or]
        cases hk : tk.sym with
        | none => rfl
        | some s' =>
          have : s ≠ s' := fun e => ht (by rw [hk, e])
          simp only [Option.bind_some, armLookup, if_neg this]

theorem find_statePairs_ne (q : Nat) (w : List Char) (x : (List (Sym × LRAction) × List Sym) × Nat) (h : x.2 ≠ q) :
    (statePairs variants x).findSome? (armHit (.pair (.num q) (.variant "TokenType".toList w))) = none := by
  rw [List.findSome?_eq_none_iff]
  intro y hy
  rcases List.mem_append.mp hy with hy | hy
  · obtain ⟨z, _, hz⟩ := List.mem_flatMap.mp hy
    obtain ⟨w', _, rfl⟩ := List.mem_map.mp hz
    simp [armHit, RPat.matches, h]
  · cases List.mem_singleton.mp hy
    simp [armHit, RPat.matches, h]

theorem readTokenList_sep (ws : List (List Char)) : readTokenList (.sepComma (ws.map fun w => rs! "TokenType::" |>.append (.word w .nil))) = some ws := by
  induction ws with
  | nil => rfl
  | cons w ws ih =>
    cases ws with
    | nil => rfl
    | cons w' ws =>
      have : readTokenList (.sepComma ((w :: w' :: ws).map fun w => rs! "TokenType::" |>.append (.word w .nil))) =
          (readTokenList (.sepComma ((w' :: ws).map fun w => rs! "TokenType::" |>.append (.word w .nil)))).map (w :: ·) := by
        cases ws <;> rfl
      rw [this, ih]; rfl

theorem act_rAction (a : LRAction) (s : Nat × List Char) : rActionMachine.act ((rs! "return").append (rustAction a)) s = .ok (.ret s (.ok (rActVal a))) := by
  show (if _ then (match readValue 5 (okPart ((rs! "return").append (rustAction a))) with | some a => (Except.ok (ROut.ret s (RActReturn.ok a)) : Res (ROut (Nat × List Char) RActReturn)) | none => Except.error Err.panic) else _) = _
  rw [readValue_action, if_pos (by cases a <;> rfl)]

theorem act_rError (es : List Sym) (s : Nat × List Char) : rActionMachine.act ((rs! "return").append (rErrTokens (rExpectedList variants es))) s =
    .ok (.ret s (.unexpected s.2 (es.filterMap (symVariant variants)))) := by
  show (if (rs! "return").append (rErrTokens (rExpectedList variants es)) = (rs! "return").append (rErrTokens (rExpectedList variants es)) then (match readTokenList (rExpectedList variants es) with | some ex => (Except.ok (ROut.ret s (RActReturn.unexpected s.2 ex)) : Res (ROut (Nat × List Char) RActReturn)) | none => Except.error Err.panic) else Except.error Err.panic) = _
  rw [show readTokenList (rExpectedList variants es) = some (es.filterMap (symVariant variants)) from readTokenList_sep _]
  rw [if_pos rfl]

/-- all arms of `next_action` -/
def actionPairs (variants : List (List Char)) (p : LRProg) : List (RPat × List RStmt) :=
  p.actions.zipIdx.flatMap (statePairs variants) ++ [(.pair .wild .wild, [.tail (rs! "unreachable!()")])]

/-- what `next_action` returns, in the text -/
def rActResult (variants : List (List Char)) (tk : Tok) : ActResult → Res RActReturn
  | .act a => .ok (.ok (rActVal a))
  | .unexpected es => .ok (.unexpected (tokVariant variants tk) (es.filterMap (symVariant variants)))
  | .panic => .error .panic

theorem call_rAction (p : LRProg) (hf : ∀ y ∈ p.actions, ∀ x ∈ y.1, SymFits variants x.1) (q : Nat) (tk : Tok) :
    (callR rActionMachine 0 [.tailMatch (rs! "(state, next_token)") ((actionPairs variants p).map armOf)] (q, tokVariant variants tk)).map (·.2) =
      rActResult variants tk (p.nextAction q tk) := by
  unfold callR
  rw [r_execs_one, r_exec_tailMatch (v := .pair (.num q) (.variant "TokenType".toList (tokVariant variants tk))) _ _ _ rfl, exec_armList]
  unfold actionPairs LRProg.nextAction
  rw [List.findSome?_append, find_state _ _ q (fun x hx => find_statePairs_ne q _ x hx), if_pos (Nat.zero_le _), Nat.sub_zero]
  cases hq : p.actions[q]? with
  | none => rfl
  | some y =>
    obtain ⟨arms, es⟩ := y
    have hfy := hf _ (List.mem_of_getElem? hq)
    simp only [Option.bind_some]
    rw [statePairs, List.findSome?_append, find_action_arms q tk _ hfy]
    cases ha : tk.sym.bind (fun s => armLookup s arms) with
    | some a =>
      simp only [Option.map_some, Option.some_or, r_binds_nil, r_execs_one, r_exec_tail, act_rAction]
      rfl
    | none =>
      have : ([(RPat.pair (.num q) .wild, [RStmt.tail (rErrTokens (rExpectedList variants es))])] : List (RPat × List RStmt)).findSome? (armHit (.pair (.num q) (.variant "TokenType".toList (tokVariant variants tk)))) =
          some ([], [.tail (rErrTokens (rExpectedList variants es))]) := by simp [armHit, RPat.matches]
      simp only [Option.map_none, Option.none_or, this, Option.some_or, r_binds_nil, r_execs_one, r_exec_tail, act_rError]
      rfl

/-! ## `next_goto` -/

/-- an arm -/
def gotoPair (variants : List (List Char)) (g : Grammar) (q : Nat) (x : Sym × LRGoto) : List (RPat × List RStmt) :=
  match x.1 with
  | .t a => [(.pair (.num q) (.field "StackSymbol".toList "Terminal".toList "token".toList (.variant "TokenType".toList (tokVariant variants (.tok a)))), [.tail (rustGoto x.2)])]
  | .nt A => [(.pair (.num q) (.field "StackSymbol".toList "NonTerminal".toList "non_terminal".toList (.variant "NonTerminalType".toList (rNtV g A))), [.tail (rustGoto x.2)])]
  | _ => []

/-- the arms of a state -/
def gotoPairs (variants : List (List Char)) (g : Grammar) (x : List (Sym × LRGoto) × Nat) : List (RPat × List RStmt) := x.1.flatMap (gotoPair variants g x.2)

theorem reads_gotoArm (hv : TokNames g variants) (q : Nat) (x : Sym × LRGoto) (fs : List RForest) (h : rustGotoArm g q x = .ok fs) :
    List.Forall₂ PairReads fs (gotoPair variants g q x) := by
  obtain ⟨s, a⟩ := x
  cases s with
  | t a' =>
    simp only [rustGotoArm] at h
    obtain ⟨f, h1, h2⟩ := res_bind_ok.mp h
    rw [hv.2 _ _ h1] at h2
    cases h2
    refine .cons ?_ .nil
    intro n r as hr
    cases a <;> refine rd_arm_expr (n := n + 10) rfl rfl ?_ rfl hr <;>
    · show some (RPat.pair (wordPat _) _) = _
      rw [wordPat_usize]; rfl
  | nt A =>
    simp only [rustGotoArm] at h
    obtain ⟨f, h1, h2⟩ := res_bind_ok.mp h
    rw [ntIdent_eq h1] at h2
    cases h2
    refine .cons ?_ .nil
    intro n r as hr
    cases a <;> refine rd_arm_expr (n := n + 10) rfl rfl ?_ rfl hr <;>
    · show some (RPat.pair (wordPat _) _) = _
      rw [wordPat_usize]; rfl
  | eof => cases h; exact .nil
  | eps => cases h; exact .nil

theorem reads_stateGotos (hv : TokNames g variants) (x : List (Sym × LRGoto) × Nat) (fs : List RForest) (h : rustStateGotos g x = .ok fs) :
    List.Forall₂ PairReads fs (gotoPairs variants g x) := by
  unfold rustStateGotos at h
  obtain ⟨arms, h1, h⟩ := res_bind_ok.mp h
  cases h
  exact forall₂_flatten (fun y ys hy => reads_gotoArm hv _ y ys hy) _ h1

/-- two non-terminals with the same variant are the same -/
def NtFits (g : Grammar) : Prop := ∀ A B, Sym.nt A ∈ g.nonTerminals → Sym.nt B ∈ g.nonTerminals → rNtV g A = rNtV g B → A = B

theorem find_goto_arms (hnt : NtFits g) (q : Nat) (s : StackSym) (hs : ∀ A, s = .nonTerminal A → Sym.nt A ∈ g.nonTerminals) (l : List (Sym × LRGoto))
    (hf : ∀ x ∈ l, SymFits variants x.1 ∧ ∀ A, x.1 = .nt A → Sym.nt A ∈ g.nonTerminals) :
    (l.flatMap (gotoPair variants g q)).findSome? (armHit (.pair (.num q) (rStackVal variants g s))) = (s.sym.bind (fun s => armLookup s l)).map fun a => ([], [.tail (rustGoto a)]) := by
  induction l with
  | nil => cases s.sym <;> rfl
  | cons x l ih =>
    obtain ⟨y, a⟩ := x
    have ih := ih (fun x hx => hf x (List.mem_cons_of_mem _ hx))
    obtain ⟨h1, h2⟩ := hf (y, a) List.mem_cons_self
    rw [List.flatMap_cons, List.findSome?_append, ih]
    by_cases he : s.sym = some y
    · have : (gotoPair variants g q (y, a)).findSome? (armHit (.pair (.num q) (rStackVal variants g s))) = some ([], [.tail (rustGoto a)]) := by
        cases s with
        | terminal t => cases t <;> simp only [StackSym.sym, Option.some.injEq, reduceCtorEq] at he; subst he; simp [gotoPair, rStackVal, armHit, RPat.matches]
        | nonTerminal A => simp only [StackSym.sym, Option.some.injEq] at he; subst he; simp [gotoPair, rStackVal, armHit, RPat.matches]
        | state q' => simp [StackSym.sym] at he
      rw [this, he]
      simp [armLookup]
    · have : (gotoPair variants g q (y, a)).findSome? (armHit (.pair (.num q) (rStackVal variants g s))) = none := by
        cases y with
        | eof => rfl
        | eps => rfl
        | t b =>
          cases s with
          | terminal t =>
            have hne : ¬ tokVariant variants (.tok b) = tokVariant variants t := by
              intro e
              have := (h1 _ rfl t).mp e.symm
              cases t <;> simp only [Tok.sym, Option.some.injEq, reduceCtorEq, Sym.t.injEq] at this
              subst this; exact he rfl
            simp [gotoPair, rStackVal, armHit, RPat.matches, hne]
          | nonTerminal A => simp [gotoPair, rStackVal, armHit, RPat.matches]
          | state q' => simp [gotoPair, rStackVal, armHit, RPat.matches]
        | nt B =>
          cases s with
          | terminal t => simp [gotoPair, rStackVal, armHit, RPat.matches]
          | nonTerminal A =>
            have hne : ¬ rNtV g B = rNtV g A := by
              intro e
              have := hnt B A (h2 B rfl) (hs A rfl) e
              subst this; exact he rfl
            simp [gotoPair, rStackVal, armHit, RPat.matches, hne]
          | state q' => simp [gotoPair, rStackVal, armHit, RPat.matches]
      rw [this, Option.none_or]
      cases hk : s.sym with
      | none => rfl
      | some s' =>
        have : y ≠ s' := fun e => he (by rw [hk, e])
        simp only [Option.bind_some, armLookup, if_neg this]

theorem find_gotoPairs_ne (q : Nat) (v : RVal) (x : List (Sym × LRGoto) × Nat) (h : x.2 ≠ q) : (gotoPairs variants g x).findSome? (armHit (.pair (.num q) v)) = none := by
  rw [List.findSome?_eq_none_iff]
  intro y hy
  obtain ⟨⟨s, a⟩, _, hz⟩ := List.mem_flatMap.mp hy
  cases s <;> simp only [gotoPair, List.mem_singleton, List.not_mem_nil] at hz <;> subst hz <;> simp [armHit, RPat.matches, h]

/-- all arms of `next_goto` -/
def allGotoPairs (variants : List (List Char)) (g : Grammar) (p : LRProg) : List (RPat × List RStmt) :=
  p.gotos.zipIdx.flatMap (gotoPairs variants g) ++ [(.pair .wild .wild, [.tail (rs! "unreachable!()")])]

theorem act_rGoto (a : LRGoto) (s : Nat × RVal) : rGotoMachine.act ((rs! "return").append (rustGoto a)) s = .ok (.ret s (rGotoVal a)) := by
  cases a with
  | accept => rfl
  | state q =>
    show (match (readValue 4 (rUsize q)).map (RVal.field "Goto".toList "State".toList "state_id".toList) with | some v => (Except.ok (ROut.ret s v) : Res (ROut (Nat × RVal) RVal)) | none => Except.error Err.panic) = _
    rw [readValue_num]; rfl

theorem call_rGoto (p : LRProg) (hnt : NtFits g) (hf : ∀ y ∈ p.gotos, ∀ x ∈ y, SymFits variants x.1 ∧ ∀ A, x.1 = .nt A → Sym.nt A ∈ g.nonTerminals) (q : Nat) (s : StackSym)
    (hs : ∀ A, s = .nonTerminal A → Sym.nt A ∈ g.nonTerminals) :
    (callR rGotoMachine 0 [.tailMatch (rs! "(state, symbol)") ((allGotoPairs variants g p).map armOf)] (q, rStackVal variants g s)).map (·.2) =
      match p.nextGoto q s with
      | some a => .ok (rGotoVal a)
      | none => .error .panic := by
  unfold callR
  rw [r_execs_one, r_exec_tailMatch (v := .pair (.num q) (rStackVal variants g s)) _ _ _ rfl, exec_armList]
  unfold allGotoPairs LRProg.nextGoto
  rw [List.findSome?_append, find_state _ _ q (fun x hx => find_gotoPairs_ne q _ x hx), if_pos (Nat.zero_le _), Nat.sub_zero]
  cases hq : p.gotos[q]? with
  | none => rfl
  | some y =>
    simp only [Option.bind_some]
    rw [gotoPairs, find_goto_arms hnt q s hs _ (hf _ (List.mem_of_getElem? hq))]
    cases ha : s.sym.bind (fun s => armLookup s y) with
    | some a =>
      simp only [Option.map_some, Option.some_or, r_binds_nil, r_execs_one, r_exec_tail, act_rGoto]
      rfl
    | none => rfl

end

end Verif
