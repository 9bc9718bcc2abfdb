import Verif.Proofs.RustStmts
import Verif.Spec.RustLexText
import Verif.Proofs.CppLRNames
import Verif.Proofs.Tables

/-! # The text of `lexer.rs`: lemmas -/

set_option autoImplicit false

namespace Verif

/-! ## Functions in the text -/

/-- the block of `next` -/
def rNextBody (automaton_cases : RForest) : RForest := rs! "
          let mut state: usize = 0;
          self.start = self.position;
          loop {
              let next_ch = self.char_iter.peek().copied().map(|c| c as u32).unwrap_or(0);
              let symbol = if let Some(symbol) = Lexer::get_alphabet_index(next_ch) {
                  symbol
              } else {
                  return Err(LexerError::InvalidChar {
                      bad_ch: next_ch
                  });
              };
              match (state, symbol) {
                  #automaton_cases
                  (_, _) => unreachable!()
              }
          }"

/-- the block of `get_alphabet_index` and `get_alphabet_range` -/
def rCaseBody (cases : RForest) : RForest := rs! "match c { #cases _ => None }"

theorem find_next (a b c : RForest) : findFn "next".toList .look (rustLexerTokens a b c) = some (rNextBody c) := rfl
theorem find_index (a b c : RForest) : findFn "get_alphabet_index".toList .look (rustLexerTokens a b c) = some (rCaseBody a) := rfl
theorem find_range (a b c : RForest) : findFn "get_alphabet_range".toList .look (rustLexerTokens a b c) = some (rCaseBody b) := rfl
theorem find_new (a b c : RForest) : findFn "new".toList .look (rustLexerTokens a b c) = some (rs! "let char_iter = src.chars().peekable(); Lexer { src, char_iter, start: 0, position: 0 }") := rfl
theorem find_span (a b c : RForest) : findFn "span".toList .look (rustLexerTokens a b c) = some (rs! "self.start..self.position") := rfl
theorem find_slice (a b c : RForest) : findFn "slice".toList .look (rustLexerTokens a b c) = some (rs! "&self.src[self.span()]") := rfl

theorem ok_lexerTokens {a b c : RForest} (ha : a.Ok) (hb : b.Ok) (hc : c.Ok) : (rustLexerTokens a b c).Ok := by
  unfold rustLexerTokens
  rust_ok

theorem readRustFn_print {f b : RForest} {name : List Char} (h : f.Ok) (hb : findFn name .look f = some b) : readRustFn name (f.print ++ ['\n']) = readRStmts (2 * b.size) b := by
  unfold readRustFn
  rw [rRead_print f h]
  simp only [Option.bind_eq_bind, Option.bind_some, hb]

/-- statements of the loop -/
def rLoopStmts (arms : List RStmt) : List RStmt :=
  [.simple (rs! "let next_ch = self.char_iter.peek().copied().map(|c| c as u32).unwrap_or(0)"),
    .simple (rs! "let symbol = if let Some(symbol) = Lexer::get_alphabet_index(next_ch) { symbol } else { return Err(LexerError::InvalidChar { bad_ch: next_ch }); }"),
    .tailMatch (rs! "(state, symbol)") arms]

/-- statements of `next` -/
def rNextStmts (arms : List RStmt) : List RStmt :=
  [.simple (rs! "let mut state: usize = 0"), .simple (rs! "self.start = self.position"), .loop (rLoopStmts arms)]

theorem read_next {c : RForest} {n : Nat} {arms : List RStmt} (h : readArms n (c.append (rs! "(_, _) => unreachable!()")) = some arms) :
    readRStmts (n + 10) (rNextBody c) = some (rNextStmts arms) := by
  refine rd_simple rfl rfl rfl ?_
  refine rd_simple rfl rfl rfl ?_
  refine rd_loop rfl ?_ rfl
  refine rd_simple rfl rfl rfl ?_
  refine rd_simple rfl rfl rfl ?_
  refine rd_tailMatch rfl h

theorem read_case {c : RForest} {n : Nat} {arms : List RStmt} (h : readArms n (c.append (rs! "_ => None")) = some arms) :
    readRStmts (n + 1) (rCaseBody c) = some [.tailMatch (rs! "c") arms] := rd_tailMatch rfl h

/-! ## Arms -/

/-- the pattern of a range -/
def rangePat (r : Nat × Nat) : RPat := if r.1 = r.2 then .num r.1 else .range r.1 r.2

theorem reads_alphabet (r : (Nat × Nat) × Nat) : ArmReads (rustAlphabetCase r) (.arm (rangePat r.1) [.tail (.word ['S', 'o', 'm', 'e'] (.group .paren (rUsize r.2) .nil))]) := by
  intro n rest as h
  unfold rustAlphabetCase rangePat
  split
  · exact rd_arm_expr (n := n + 10) rfl rfl (by show some (wordPat _) = _; rw [wordPat_u32]) rfl h
  · refine rd_arm_expr (n := n + 10) rfl rfl ?_ rfl h
    show (rNumber _).bind (fun x => (rNumber _).bind fun y => some (RPat.range x y)) = _
    rw [rNumber_u32, rNumber_u32]; rfl

theorem reads_reverse (r : (Nat × Nat) × Nat) :
    ArmReads (rustReverseCase r) (.arm (.num r.2) [.tail (.word ['S', 'o', 'm', 'e'] (.group .paren ((rU32 r.1.1).append (.sym ['.', '.', '='] (rU32 r.1.2))) .nil))]) := by
  intro n rest as h
  exact rd_arm_expr (n := n + 10) rfl rfl (by show some (wordPat _) = _; rw [wordPat_usize]) rfl h

/-- an arm of the `match` in `next` -/
def rArmStmt (name : Nat → List Char) : LexArm → RStmt
  | .eof s => .arm (.pair (.num s) (.num 0)) [.simple (rs! "return Ok(TokenType::EndOfFile)")]
  | .advance s t target =>
    let target_index := rUsize target
    .arm (.pair (.num s) (.num t)) [.simple (rs! "let next_ch = self.char_iter.next().unwrap()"), .simple (rs! "self.position += next_ch.len_utf8()"), .simple (rs! "state = #target_index")]
  | .accept s r =>
    let name := RForest.word (name r) .nil
    .arm (.pair (.num s) .wild) [.simple (rs! "return Ok(TokenType::#name)")]
  | .reject s => .arm (.pair (.num s) (.bind "transition".toList))
      [.simple (rs! "return Err(LexerError::UnexpectedAlphabet { range: Lexer::get_alphabet_range(transition).unwrap() })")]

theorem reads_arm {rules : List TokenRule} {name : Nat → List Char} (hname : ∀ r w, tokenEnumName (ruleName rules r) = .ok w → name r = w) {a : LexArm} {f : RForest}
    (h : rustArm rules a = .ok f) : ArmReads f (rArmStmt name a) := by
  intro n rest as hr
  cases a with
  | eof s =>
    cases h
    refine rd_arm_block (n := n + 10) rfl ?_ (rd_simple (n := n + 8) rfl rfl rfl rfl) hr
    show some (RPat.pair (wordPat _) (wordPat _)) = _
    rw [wordPat_usize]; rfl
  | advance s t q =>
    cases h
    refine rd_arm_block (n := n + 10) rfl ?_ (rd_simple (n := n + 8) rfl rfl rfl (rd_simple (n := n + 6) rfl rfl rfl (rd_simple (n := n + 4) rfl rfl ?_ rfl))) hr
    · show some (RPat.pair (wordPat _) (wordPat _)) = _
      rw [wordPat_usize, wordPat_usize]
    · show upToWord _ (.word _ (.sym _ (.word _ .nil))) = none
      simp only [upToWord]
      rw [if_neg (by decide), if_neg]
      · rfl
      · exact decimal_ne (fun c hc => by simp at hc; subst hc; decide) _ _
  | accept s r =>
    simp only [rustArm] at h
    obtain ⟨w, hw, h⟩ := res_bind_ok.mp h
    cases h
    have := hname r w hw
    subst this
    refine rd_arm_block (n := n + 10) rfl ?_ (rd_simple (n := n + 8) rfl rfl rfl rfl) hr
    show some (RPat.pair (wordPat _) (wordPat _)) = _
    rw [wordPat_usize]; rfl
  | reject s =>
    cases h
    refine rd_arm_block (n := n + 10) rfl ?_ (rd_simple (n := n + 8) rfl rfl rfl rfl) hr
    show some (RPat.pair (wordPat _) (wordPat _)) = _
    rw [wordPat_usize]; rfl

theorem reads_else_none (n : Nat) : readArms (n + 10) (rs! "_ => None") = some [.arm .wild [.tail (rs! "None")]] := rd_arm_last (n := n + 9) rfl rfl rfl rfl
theorem reads_else_unreachable (n : Nat) : readArms (n + 10) (rs! "(_, _) => unreachable!()") = some [.arm (.pair .wild .wild) [.tail (rs! "unreachable!()")]] :=
  rd_arm_last (n := n + 9) rfl rfl rfl rfl

/-! ## Execution: the two tables -/

theorem case_act {ρ : Type} {returned : RForest → Option ρ} {ts : RForest} {r : ρ} (h : returned ts = some r) (s : Nat) : (caseMachine returned).act ts s = .ok (.ret s r) := by
  simp only [caseMachine, h]

theorem case_tail {ρ : Type} {returned : RForest → Option ρ} {ts : RForest} {r : ρ} (h : returned ((rs! "return").append ts) = some r) (s : Nat) :
    (caseMachine returned).execs 0 (rs! "return") [.tail ts] s = .ok (.ret s r) := by
  rw [r_execs_one, r_exec_tail]
  exact case_act h s

theorem exec_rIndex (c : Nat) (s : Nat) (rs : List (Nat × Nat)) (k : Nat) :
    (caseMachine returnedIndex).execArms 0 (rs! "return") (.num c) ((rs.zipIdx k).map (fun r => RStmt.arm (rangePat r.1) [.tail (.word ['S', 'o', 'm', 'e'] (.group .paren (rUsize r.2) .nil))]) ++
      [.arm .wild [.tail (rs! "None")]]) s = .ok (.ret s ((rs.findIdx? (fun r => r.1 ≤ c ∧ c ≤ r.2)).map (· + k))) := by
  induction rs generalizing k with
  | nil => 
    rw [List.zipIdx_nil, List.map_nil, List.nil_append, r_arms_take _ _ _ (bs := []) rfl rfl, case_tail (r := none) rfl]
    rfl
  | cons r rs ih =>
    rw [List.zipIdx_cons, List.map_cons, List.cons_append, List.findIdx?_cons]
    have hm : (rangePat r).matches (.num c) = if r.1 ≤ c ∧ c ≤ r.2 then some [] else none := by
      unfold rangePat
      split
      · rename_i h
        simp only [RPat.matches, h]
        by_cases e : r.2 = c
        · rw [if_pos e, if_pos (by omega)]
        · rw [if_neg e, if_neg (by omega)]
      · rfl
    by_cases h : r.1 ≤ c ∧ c ≤ r.2
    · rw [if_pos h] at hm
      rw [r_arms_take _ _ _ hm rfl, case_tail (r := some k)]
      · simp [h]
      · show (rNumber _).map some = _
        rw [rNumber_usize]; rfl
    · rw [if_neg h] at hm
      rw [r_arms_skip _ _ _ hm, ih]
      simp only [h, decide_false, Bool.false_eq_true, if_false, Option.map_map]
      congr 3
      funext x
      simp only [Function.comp]
      omega

theorem exec_rRange (c : Nat) (s : Nat) (rs : List (Nat × Nat)) (k : Nat) (hk : k ≤ c) :
    (caseMachine returnedRange).execArms 0 (rs! "return") (.num c) ((rs.zipIdx k).map (fun r => RStmt.arm (.num r.2) [.tail (.word ['S', 'o', 'm', 'e'] (.group .paren ((rU32 r.1.1).append (.sym ['.', '.', '='] (rU32 r.1.2))) .nil))]) ++
      [.arm .wild [.tail (rs! "None")]]) s = .ok (.ret s rs[c - k]?) := by
  induction rs generalizing k with
  | nil =>
    rw [List.zipIdx_nil, List.map_nil, List.nil_append, r_arms_take _ _ _ (bs := []) rfl rfl, case_tail (r := none) rfl]
    rfl
  | cons r rs ih =>
    rw [List.zipIdx_cons, List.map_cons, List.cons_append]
    by_cases h : k = c
    · subst h
      rw [r_arms_take _ _ _ (bs := []) (by simp [RPat.matches]) rfl, case_tail (r := some r)]
      · simp
      · show (rNumber _).bind (fun x => (rNumber _).bind fun y => some (some (x, y))) = _
        rw [rNumber_u32, rNumber_u32]; rfl
    · rw [r_arms_skip _ _ _ (by simp [RPat.matches, h]), ih (k + 1) (by omega)]
      rw [show c - k = (c - (k + 1)) + 1 by omega, List.getElem?_cons_succ]

/-! ## Execution of `next` -/

section
variable (index : Nat → Res (Option Nat)) (range : Nat → Res (Option (Nat × Nat)))

theorem act_mut (s : RNextVars) : rNextAct index range (rs! "let mut state: usize = 0") s = .ok (.next { s with state := some 0 }) := rfl
theorem act_start (s : RNextVars) : rNextAct index range (rs! "self.start = self.position") s = .ok (.next { s with lexer := { s.lexer with start := s.lexer.position } }) := rfl
theorem act_peek (s : RNextVars) : rNextAct index range (rs! "let next_ch = self.char_iter.peek().copied().map(|c| c as u32).unwrap_or(0)") s =
    .ok (.next { s with nextCh := some ((s.lexer.rest.head?.map Char.toNat).getD 0) }) := rfl
theorem act_symbol (s : RNextVars) : rNextAct index range (rs! "let symbol = if let Some(symbol) = Lexer::get_alphabet_index(next_ch) { symbol } else { return Err(LexerError::InvalidChar { bad_ch: next_ch }); }") s =
    (match s.nextCh with
    | none => .error .panic
    | some c =>
      match index c with
      | .error e => .error e
      | .ok (some i) => .ok (.next { s with symbol := some i })
      | .ok none => .ok (.ret s (.invalidChar c))) := rfl
theorem act_take (s : RNextVars) : rNextAct index range (rs! "let next_ch = self.char_iter.next().unwrap()") s =
    (match s.lexer.rest with
    | [] => .error .panic
    | c :: rest => .ok (.next { s with lexer := { s.lexer with rest := rest }, taken := some c })) := rfl
theorem act_position (s : RNextVars) : rNextAct index range (rs! "self.position += next_ch.len_utf8()") s =
    (match s.taken with
    | none => .error .panic
    | some c => .ok (.next { s with lexer := { s.lexer with position := s.lexer.position + c.utf8Size } })) := rfl
theorem act_unexpected (s : RNextVars) : rNextAct index range (rs! "return Err(LexerError::UnexpectedAlphabet { range: Lexer::get_alphabet_range(transition).unwrap() })") s =
    (match s.transition with
    | none => .error .panic
    | some t =>
      match range t with
      | .error e => .error e
      | .ok none => .error .panic
      | .ok (some r) => .ok (.ret s (.unexpectedAlphabet r))) := rfl
theorem act_unreachable (s : RNextVars) : rNextAct index range (rs! "unreachable!()") s = .error .panic := rfl
theorem act_state (k : Nat) (s : RNextVars) : rNextAct index range (.word ['s', 't', 'a', 't', 'e'] (.sym ['='] (rUsize k))) s = .ok (.next { s with state := some k }) := by
  show (match rNumber _ with | some k => _ | none => _) = _
  rw [rNumber_usize]
theorem act_return (v : List Char) (s : RNextVars) :
    rNextAct index range (.word ['r', 'e', 't', 'u', 'r', 'n'] (.word ['O', 'k'] (.group .paren (.word ['T', 'o', 'k', 'e', 'n', 'T', 'y', 'p', 'e'] (.sym [':', ':'] (.word v .nil))) .nil))) s = .ok (.ret s (.ok v)) := rfl
end

/-! ### The loop -/

/-- the pattern of an arm -/
def rArmPat : LexArm → RPat
  | .eof s => .pair (.num s) (.num 0)
  | .advance s t _ => .pair (.num s) (.num t)
  | .accept s _ => .pair (.num s) .wild
  | .reject s => .pair (.num s) (.bind "transition".toList)

/-- its block -/
def rArmBody (name : Nat → List Char) (a : LexArm) : List RStmt :=
  match rArmStmt name a with
  | .arm _ b => b
  | _ => []

theorem rArm_eq (name : Nat → List Char) (a : LexArm) : rArmStmt name a = .arm (rArmPat a) (rArmBody name a) := by cases a <;> rfl

theorem rArm_applies (q i : Nat) (a : LexArm) : ((rArmPat a).matches (.pair (.num q) (.num i))).isSome = a.applies q i := by
  cases a with
  | eof s =>
    simp only [rArmPat, RPat.matches, LexArm.applies]
    by_cases h1 : s = q <;> by_cases h2 : 0 = i <;> simp [h1, h2, eq_comm] <;> omega
  | advance s t _ =>
    simp only [rArmPat, RPat.matches, LexArm.applies]
    by_cases h1 : s = q <;> by_cases h2 : t = i <;> simp [h1, h2, eq_comm] <;> omega
  | accept s _ =>
    simp only [rArmPat, RPat.matches, LexArm.applies]
    by_cases h1 : s = q <;> simp [h1]
  | reject s =>
    simp only [rArmPat, RPat.matches, LexArm.applies]
    by_cases h1 : s = q <;> simp [h1]

/-- result in Rust -/
def rustLexResult (name : Nat → List Char) : LexResult → RustLexResult
  | .token r => .ok (name r)
  | .eof => .ok "EndOfFile".toList
  | .invalidChar c => .invalidChar c
  | .unexpectedAlphabet r => .unexpectedAlphabet r

theorem bind_transition (index : Nat → Res (Option Nat)) (range : Nat → Res (Option (Nat × Nat))) (i : Nat) (s : RNextVars) :
    (rNextMachine index range).binds [("transition".toList, .num i)] s = .ok { s with transition := some i } := rfl

section
variable (name : Nat → List Char) (t : LexerTables) {index : Nat → Res (Option Nat)} {range : Nat → Res (Option (Nat × Nat))}
  (hindex : ∀ c, index c = .ok (getAlphabetIndex t.alphabet c)) (hrange : ∀ i, range i = .ok t.alphabet.ranges[i]?)

/-- the arms -/
def rArms : List RStmt := (lexArms t.dfa).map (rArmStmt name) ++ [.arm (.pair .wild .wild) [.tail (rs! "unreachable!()")]]

/-- what one round does: the end, or another round in a new state -/
inductive Round where
  | done (r : LexResult)
  | again (state : Nat)
  | panic

/-- one round -/
def roundOf (q : Nat) (rest : List Char) : Round :=
  let c := (rest.head?.map Char.toNat).getD 0
  match getAlphabetIndex t.alphabet c with
  | none => .done (.invalidChar c)
  | some symbol =>
    match (lexArms t.dfa).find? (LexArm.applies q symbol) with
    | none => .panic
    | some (.eof _) => .done .eof
    | some (.advance _ _ target) => if rest = [] then .panic else .again target
    | some (.accept _ rule) => .done (.token rule)
    | some (.reject _) =>
      match t.alphabet.ranges[symbol]? with
      | none => .panic
      | some r => .done (.unexpectedAlphabet r)

theorem lexLoop_round (q p : Nat) (rest : List Char) : lexLoop t q p rest = match roundOf t q rest with
    | .done r => .ok (r, rest, p)
    | .again q' => match rest with
      | [] => .error .panic
      | c :: rest => lexLoop t q' (p + c.utf8Size) rest
    | .panic => .error .panic := by
  cases rest with
  | nil =>
    rw [lexLoop, roundOf]
    simp only [List.head?_nil, Option.map_none, Option.getD_none]
    cases getAlphabetIndex t.alphabet 0 with
    | none => rfl
    | some i =>
      simp only
      cases (lexArms t.dfa).find? (LexArm.applies q i) with
      | none => rfl
      | some a =>
        cases a with
        | reject _ => simp only; cases t.alphabet.ranges[i]? <;> rfl
        | advance _ _ _ => rfl
        | _ => rfl
  | cons c rest =>
    rw [lexLoop, roundOf]
    simp only [List.head?_cons, Option.map_some, Option.getD_some]
    cases getAlphabetIndex t.alphabet c.toNat with
    | none => rfl
    | some i =>
      simp only
      cases (lexArms t.dfa).find? (LexArm.applies q i) with
      | none => rfl
      | some a =>
        cases a with
        | reject _ => simp only; cases t.alphabet.ranges[i]? <;> rfl
        | advance _ _ _ => rfl
        | _ => rfl

include hindex hrange in
/-- one round in the text -/
theorem exec_rRound (n q : Nat) (s : RNextVars) (hq : s.state = some q) :
    match roundOf t q s.lexer.rest with
    | .done r => ∃ s', (rNextMachine index range).execs n .nil (rLoopStmts (rArms name t)) s = .ok (.ret s' (rustLexResult name r)) ∧ s'.lexer = s.lexer
    | .again q' => ∃ c rest s', s.lexer.rest = c :: rest ∧ (rNextMachine index range).execs n .nil (rLoopStmts (rArms name t)) s = .ok (.next s') ∧
        s'.state = some q' ∧ s'.lexer = { s.lexer with rest := rest, position := s.lexer.position + c.utf8Size }
    | .panic => (rNextMachine index range).execs n .nil (rLoopStmts (rArms name t)) s = .error .panic := by
  obtain ⟨l, st, nc, sy, tr, tk⟩ := s
  simp only at hq
  subst hq
  unfold rLoopStmts
  rw [r_execs_next _ _ _ (s' := ⟨l, some q, some ((l.rest.head?.map Char.toNat).getD 0), sy, tr, tk⟩) (by rw [r_exec_simple]; exact act_peek index range _)]
  generalize hc : (l.rest.head?.map Char.toNat).getD 0 = c
  have hs : ∀ s : RNextVars, (rNextMachine index range).exec n .nil (.simple (rs! "let symbol = if let Some(symbol) = Lexer::get_alphabet_index(next_ch) { symbol } else { return Err(LexerError::InvalidChar { bad_ch: next_ch }); }")) s =
      (match s.nextCh with
      | none => .error .panic
      | some c =>
        match index c with
        | .error e => .error e
        | .ok (some i) => .ok (.next { s with symbol := some i })
        | .ok none => .ok (.ret s (.invalidChar c))) := fun s => by rw [r_exec_simple]; exact act_symbol index range s
  simp only
  cases hi : getAlphabetIndex t.alphabet c with
  | none =>
    rw [show roundOf t q l.rest = .done (.invalidChar c) by simp only [roundOf, hc, hi]]
    refine ⟨⟨l, some q, some c, sy, tr, tk⟩, r_execs_ret _ _ _ ?_, rfl⟩
    rw [hs]
    simp only [hindex, hi]
    rfl
  | some i =>
    rw [r_execs_next _ _ _ (s' := ⟨l, some q, some c, some i, tr, tk⟩) (by rw [hs]; simp only [hindex, hi])]
    rw [r_execs_one, r_exec_tailMatch _ _ _ (v := .pair (.num q) (.num i)) rfl]
    unfold rArms
    rw [r_arms_find _ _ _ (rArmStmt name) rArmPat (rArmBody name) (rArm_eq name)]
    rw [show (fun a => ((rArmPat a).matches (.pair (.num q) (.num i))).isSome) = LexArm.applies q i from funext (rArm_applies q i)]
    cases hf : (lexArms t.dfa).find? (LexArm.applies q i) with
    | none =>
      rw [show roundOf t q l.rest = .panic by simp only [roundOf, hc, hi, hf]]
      simp only
      rw [r_arms_take _ _ _ (bs := []) rfl rfl, r_execs_one, r_exec_tail]
      exact act_unreachable index range ⟨l, some q, some c, some i, tr, tk⟩
    | some a =>
      have ha := List.find?_some hf
      simp only
      cases a with
      | eof s0 =>
        rw [show roundOf t q l.rest = .done .eof by simp only [roundOf, hc, hi, hf]]
        simp only [LexArm.applies, decide_eq_true_eq] at ha
        obtain ⟨rfl, rfl⟩ := ha
        refine ⟨⟨l, some s0, some c, some 0, tr, tk⟩, ?_, rfl⟩
        rw [rArm_eq, r_arms_take _ _ _ (bs := []) (by simp [rArmPat, RPat.matches]) rfl]
        exact r_execs_ret _ _ _ (by rw [r_exec_simple]; exact act_return index range _ _)
      | advance s0 t0 target =>
        rw [show roundOf t q l.rest = if l.rest = [] then .panic else .again target by simp only [roundOf, hc, hi, hf]]
        simp only [LexArm.applies, decide_eq_true_eq] at ha
        obtain ⟨rfl, rfl⟩ := ha
        have hb : ∀ s, (rNextMachine index range).execArms n .nil (.pair (.num s0) (.num i)) [rArmStmt name (.advance s0 i target)] s =
            (rNextMachine index range).execs n .nil (rArmBody name (.advance s0 i target)) s := fun s => by
          rw [rArm_eq, r_arms_take _ _ _ (bs := []) (by simp [rArmPat, RPat.matches]) rfl]
        rw [hb]
        unfold rArmBody rArmStmt
        simp only
        cases hr : l.rest with
        | nil =>
          rw [if_pos rfl]
          refine r_execs_err _ _ _ ?_
          rw [r_exec_simple]
          rw [show (rNextMachine index range).act = rNextAct index range from rfl, act_take]
          simp only [hr]
        | cons x rest =>
          rw [if_neg (by simp)]
          simp only
          refine ⟨x, rest, ⟨{ l with rest := rest, position := l.position + x.utf8Size }, some target, some c, some i, tr, some x⟩, rfl, ?_, rfl, rfl⟩
          rw [r_execs_next _ _ _ (s' := ⟨{ l with rest := rest }, some s0, some c, some i, tr, some x⟩)]
          · rw [r_execs_next _ _ _ (s' := ⟨{ l with rest := rest, position := l.position + x.utf8Size }, some s0, some c, some i, tr, some x⟩)]
            · rw [r_execs_one, r_exec_simple]
              exact act_state index range _ _
            · rw [r_exec_simple]
              rw [show (rNextMachine index range).act = rNextAct index range from rfl, act_position]
          · rw [r_exec_simple]
            rw [show (rNextMachine index range).act = rNextAct index range from rfl, act_take]
            simp only [hr]
      | accept s0 r =>
        rw [show roundOf t q l.rest = .done (.token r) by simp only [roundOf, hc, hi, hf]]
        simp only [LexArm.applies, decide_eq_true_eq] at ha
        subst ha
        refine ⟨⟨l, some s0, some c, some i, tr, tk⟩, ?_, rfl⟩
        rw [rArm_eq, r_arms_take _ _ _ (bs := []) (by simp [rArmPat, RPat.matches]) rfl]
        exact r_execs_ret _ _ _ (by rw [r_exec_simple]; exact act_return index range _ _)
      | reject s0 =>
        simp only [LexArm.applies, decide_eq_true_eq] at ha
        subst ha
        have hb : ∀ s, (rNextMachine index range).execArms n .nil (.pair (.num s0) (.num i)) [rArmStmt name (.reject s0)] s =
            (rNextMachine index range).execs n .nil (rArmBody name (.reject s0)) { s with transition := some i } := fun s => by
          rw [rArm_eq, r_arms_take _ _ _ (bs := [("transition".toList, .num i)]) (by simp [rArmPat, RPat.matches]) (bind_transition _ _ _ _)]
        rw [hb]
        unfold rArmBody rArmStmt
        simp only
        cases hr : t.alphabet.ranges[i]? with
        | none =>
          rw [show roundOf t s0 l.rest = .panic by simp only [roundOf, hc, hi, hf, hr]]
          refine r_execs_err _ _ _ ?_
          rw [r_exec_simple]
          rw [show (rNextMachine index range).act = rNextAct index range from rfl, act_unexpected]
          simp only [hrange, hr]
        | some r =>
          rw [show roundOf t s0 l.rest = .done (.unexpectedAlphabet r) by simp only [roundOf, hc, hi, hf, hr]]
          refine ⟨⟨l, some s0, some c, some i, some i, tk⟩, r_execs_ret _ _ _ ?_, rfl⟩
          rw [r_exec_simple]
          rw [show (rNextMachine index range).act = rNextAct index range from rfl, act_unexpected]
          simp only [hrange, hr]
          rfl

include hindex hrange in
theorem exec_lexLoop (n0 n q : Nat) (s : RNextVars) (hq : s.state = some q) (hn : s.lexer.rest.length < n) :
    match lexLoop t q s.lexer.position s.lexer.rest with
    | .ok (r, rest, p) => ∃ s', rLoop (fun _ => some true) (fun s => (rNextMachine index range).execs n0 .nil (rLoopStmts (rArms name t)) s) n s = .ok (.ret s' (rustLexResult name r)) ∧
        s'.lexer = { s.lexer with rest := rest, position := p }
    | .error e => rLoop (fun _ => some true) (fun s => (rNextMachine index range).execs n0 .nil (rLoopStmts (rArms name t)) s) n s = .error e := by
  induction n generalizing q s with
  | zero => omega
  | succ n ih =>
    have h := exec_rRound name t hindex hrange n0 q s hq
    rw [lexLoop_round]
    cases hr : roundOf t q s.lexer.rest with
    | done r =>
      rw [hr] at h
      obtain ⟨s', h1, h2⟩ := h
      refine ⟨s', ?_, by rw [h2]⟩
      simp only [rLoop, h1]
    | panic =>
      rw [hr] at h
      simp only [rLoop, h]
    | again q' =>
      rw [hr] at h
      obtain ⟨c, rest, s', h0, h1, h2, h3⟩ := h
      rw [h0]
      simp only [rLoop, h1]
      have := ih q' s' h2 (by rw [h3]; rw [h0] at hn; simpa using hn)
      rw [h3] at this
      exact this

include hindex hrange in
theorem exec_rNext (n : Nat) (l : Lexer) (hn : l.rest.length < n) :
    (callR (rNextMachine index range) n (rNextStmts (rArms name t)) ⟨l, none, none, none, none, none⟩).map (fun r => (r.2, r.1.lexer)) =
      (Lexer.next t l).map (fun x => (rustLexResult name x.1, x.2)) := by
  unfold callR rNextStmts
  rw [r_execs_next _ _ _ (s' := ⟨l, some 0, none, none, none, none⟩) (by rw [r_exec_simple]; exact act_mut index range _)]
  rw [r_execs_next _ _ _ (s' := ⟨{ l with start := l.position }, some 0, none, none, none, none⟩) (by rw [r_exec_simple]; exact act_start index range _)]
  rw [r_execs_one, r_exec_loop]
  have h := exec_lexLoop name t hindex hrange n n 0 ⟨{ l with start := l.position }, some 0, none, none, none, none⟩ rfl hn
  unfold Lexer.next
  simp only at h
  cases hl : lexLoop t 0 l.position l.rest with
  | error e =>
    rw [hl] at h
    simp only [h]
    rfl
  | ok x =>
    obtain ⟨r, rest, p⟩ := x
    rw [hl] at h
    obtain ⟨s', h1, h2⟩ := h
    simp only [h1]
    show Except.ok (rustLexResult name r, s'.lexer) = _
    rw [h2]
    rfl
end

/-! ## Rules of accepting states -/

theorem withPrecedence_rule {rules : List TokenRule} : ∀ {js : List Nat} {l : List (Nat × Nat)}, withPrecedence rules js = some l → ∀ x ∈ l, ∃ r, rules[x.1]? = some r := by
  intro js
  induction js with
  | nil => intro l h x hx; cases h; cases hx
  | cons j js ih =>
    intro l h x hx
    simp only [withPrecedence] at h
    split at h
    · rename_i p l' h1 h2
      cases h
      rcases List.mem_cons.mp hx with rfl | hx
      · cases hr : rules[j]? with
        | none => rw [hr] at h1; cases h1
        | some r => exact ⟨r, rfl⟩
      · exact ih h2 x hx
    · cases h

theorem resolve_rule {rules : List TokenRule} {js : List Nat} {r : Nat} (h : resolvePrecedence rules js = .ok (.ok r)) : ∃ x, rules[r]? = some x := by
  unfold resolvePrecedence at h
  split at h
  · cases h
  · rename_i l hl
    simp only at h
    split at h
    · cases h
    · rename_i hs
      split at h
      · cases h
      · split at h
        · cases h
        · rename_i hm
          cases h
          have h1 : ∀ {l : List Nat} {rest}, l = r :: rest → r ∈ l := fun e => by rw [e]; exact List.mem_cons_self
          have h1 := h1 hm
          obtain ⟨x, hx, rfl⟩ := List.mem_map.mp h1
          exact withPrecedence_rule hl x ((List.perm_insertionSort _ l).mem_iff.mp (List.mem_filter.mp hx).1)

theorem states_rule {rules : List TokenRule} : ∀ (states : List (AutomatonState (List Nat))) {i : Nat} {d d' : Dfa Nat Nat} {m m' : List (Nat × Nat)},
    (∀ r, .accepting r ∈ d.graph.nodes → ∃ x, rules[r]? = some x) → applyPrecedenceStates rules i states d m = .ok (.ok (d', m')) →
    ∀ r, .accepting r ∈ d'.graph.nodes → ∃ x, rules[r]? = some x := by
  intro states
  induction states with
  | nil => intro i d d' m m' hd h; cases h; exact hd
  | cons st states ih =>
    intro i d d' m m' hd h
    cases st with
    | accepting js =>
      simp only [applyPrecedenceStates] at h
      cases hr : resolvePrecedence rules js with
      | error e => rw [hr] at h; cases h
      | ok y =>
        cases y with
        | error e => rw [hr] at h; cases h
        | ok r =>
          rw [hr] at h
          refine ih ?_ h
          intro r' hr'
          simp only [Dfa.addAcceptingState, Graph.addNode, List.mem_append, List.mem_singleton] at hr'
          rcases hr' with hr' | hr'
          · exact hd r' hr'
          · cases hr'; exact resolve_rule hr
    | intermediate k =>
      simp only [applyPrecedenceStates] at h
      refine ih ?_ h
      intro r' hr'
      simp only [Dfa.addIntermediateState, Graph.addNode, List.mem_append, List.mem_singleton] at hr'
      rcases hr' with hr' | hr'
      · exact hd r' hr'
      · cases hr'

theorem foldlM_inv {α β : Type} {f : β → α → Res β} (P : β → Prop) (hf : ∀ b a b', P b → f b a = .ok b' → P b') : ∀ (l : List α) {b b' : β}, P b → l.foldlM f b = .ok b' → P b' := by
  intro l
  induction l with
  | nil => intro b b' hb h; cases h; exact hb
  | cons a l ih =>
    intro b b' hb h
    rw [List.foldlM_cons] at h
    obtain ⟨b1, h1, h2⟩ := res_bind_ok.mp h
    exact ih (hf b a b1 hb h1) h2

theorem accepting_rule {fuel : Nat} {rules : List TokenRule} {t : LexerTables} (h : generateLexer fuel rules = .ok (.ok t)) :
    ∀ r, .accepting r ∈ t.dfa.graph.nodes → ∃ x, rules[r]? = some x := by
  unfold generateLexer at h
  obtain ⟨⟨start, nfa⟩, _, h⟩ := res_bind_ok.mp h
  obtain ⟨d, _, h⟩ := res_bind_ok.mp h
  obtain ⟨x, h3, h⟩ := res_bind_ok.mp h
  cases x with
  | error e => cases h
  | ok d' =>
    cases h
    unfold applyPrecedenceToDfa at h3
    split at h3
    · cases h3
    · cases h3
    · rename_i d1 m1 h1
      split at h3
      · cases h3
      · rename_i d2 h2
        cases h3
        have h0 := states_rule (rules := rules) _ (by intro r hr; simp at hr) h1
        refine foldlM_inv (fun d : Dfa Nat Nat => ∀ r, .accepting r ∈ d.graph.nodes → ∃ x, rules[r]? = some x) ?_ _ h0 h2
        rintro b ⟨old, new⟩ b' hb hstep
        refine foldlM_inv (fun d : Dfa Nat Nat => ∀ r, .accepting r ∈ d.graph.nodes → ∃ x, rules[r]? = some x) ?_ _ hb hstep
        rintro b ⟨w, tgt⟩ b' hb hstep
        simp only at hstep
        split at hstep
        · cases hstep
        · cases hstep
          exact hb

theorem mem_lexArms_accept {dfa : Dfa Nat Nat} {q r : Nat} (h : LexArm.accept q r ∈ lexArms dfa) : .accepting r ∈ dfa.graph.nodes := by
  unfold lexArms at h
  obtain ⟨l, hl, h⟩ := List.mem_flatten.mp h
  obtain ⟨⟨node, i⟩, hn, rfl⟩ := List.mem_map.mp hl
  have hmem : node ∈ dfa.graph.nodes := by
    have := List.mem_zipIdx_iff_getElem?.mp hn
    exact List.mem_of_getElem? this
  simp only [lexArmsOf, List.mem_append, List.mem_filterMap, List.mem_singleton] at h
  rcases h with (h | ⟨x, _, h⟩) | h
  · split at h
    · simp at h
    · cases h
  · split at h <;> cases h
  · cases node with
    | accepting r' => cases h; exact hmem
    | intermediate _ => cases h

/-! ## Names -/

theorem isWord_lower {w : List Char} (h : IsWord w) : IsWord (w.map asciiLower) := by
  intro c hc
  obtain ⟨d, hd, rfl⟩ := List.mem_map.mp hc
  have := h d hd
  simp only [isCWordChar, Bool.or_eq_true, Bool.and_eq_true, decide_eq_true_eq, toNat_lower, eq_underscore] at this ⊢
  unfold lowNat
  split <;> omega

theorem camelGo_word : ∀ (cs : List Char) (b : Bool) (out : List Char), IsWord cs → camelGo b cs = .ok out → IsWord out := by
  intro cs
  induction cs with
  | nil => intro b out _ h; cases b <;> cases h; intro c hc; cases hc
  | cons c cs ih =>
    intro b out hw h
    have hw' : IsWord cs := fun d hd => hw d (by simp [hd])
    have hu : isCWordChar (asciiUpper c) = true := isWord_upper (w := [c]) (fun d hd => hw d (by simp at hd; simp [hd])) _ (by simp)
    have hl : isCWordChar (asciiLower c) = true := isWord_lower (w := [c]) (fun d hd => hw d (by simp at hd; simp [hd])) _ (by simp)
    have cons : ∀ x o, isCWordChar x = true → IsWord o → IsWord (x :: o) := fun x o hx ho d hd => (List.mem_cons.mp hd).elim (fun e => e ▸ hx) (ho d)
    have fin : ∀ x, isCWordChar x = true → ∀ b' o, (camelGo b' cs).map (x :: ·) = .ok o → IsWord o := by
      intro x hx b' o ho
      cases hg : camelGo b' cs with
      | error e => rw [hg] at ho; cases ho
      | ok o' => rw [hg] at ho; cases ho; exact cons x o' hx (ih b' o' hw' hg)
    unfold camelGo at h
    cases b with
    | true =>
      simp only at h
      split at h
      · cases h
      · split at h
        · exact fin _ hu _ _ h
        · cases h
    | false =>
      simp only at h
      split at h
      · exact ih _ _ hw' h
      · exact fin _ hl _ _ h

theorem tokenEnum_word {n w : List Char} (hn : IsWord n) (h : tokenEnumName n = .ok w) : IsWord w ∧ w ≠ [] := by
  unfold tokenEnumName at h
  obtain ⟨c, hc, h⟩ := res_bind_ok.mp h
  cases h
  rw [upperCamel_go] at hc
  exact ⟨isWord_append (by unfold IsWord; decide) (camelGo_word _ _ _ hn hc), by simp⟩

theorem wordB_of {w : List Char} (h : IsWord w ∧ w ≠ []) : wordB w = true := by
  obtain ⟨h1, h2⟩ := h
  simp only [wordB, Bool.and_eq_true, Bool.not_eq_true', List.isEmpty_eq_false_iff, List.all_eq_true]
  exact ⟨h2, h1⟩

/-! ## The files -/

theorem ok_alphabetCase (r : (Nat × Nat) × Nat) : (rustAlphabetCase r).Ok := by
  have h1 := ok_u32 r.1.1
  have h2 := ok_u32 r.1.2
  have h3 := ok_usize r.2
  unfold rustAlphabetCase
  simp only
  split <;> rust_ok

theorem ok_reverseCase (r : (Nat × Nat) × Nat) : (rustReverseCase r).Ok := by
  have h1 := ok_u32 r.1.1
  have h2 := ok_u32 r.1.2
  have h3 := ok_usize r.2
  unfold rustReverseCase
  rust_ok

theorem ok_arm {rules : List TokenRule} (hn : ∀ r ∈ rules, IsWord r.name.toList) {a : LexArm} {f : RForest} (h : rustArm rules a = .ok f) : f.Ok := by
  cases a with
  | eof s =>
    have h1 := ok_usize s
    cases h
    rust_ok
  | advance s t q =>
    have h1 := ok_usize s
    have h2 := ok_usize t
    have h3 := ok_usize q
    cases h
    rust_ok
  | accept s r =>
    have h1 := ok_usize s
    simp only [rustArm] at h
    obtain ⟨w, hw, h⟩ := res_bind_ok.mp h
    have hr : IsWord (ruleName rules r) := by
      unfold ruleName
      cases hr : rules[r]? with
      | none => intro c hc; simp at hc
      | some x => exact hn x (List.mem_of_getElem? hr)
    have h2 : (RForest.word w .nil).Ok := ok_word (wordB_of (tokenEnum_word hr hw)) ok_nil
    cases h
    rust_ok
  | reject s =>
    have h1 := ok_usize s
    cases h
    rust_ok

theorem forall₂_maps {α β γ : Type} {R : β → γ → Prop} {f : α → β} {g : α → γ} (l : List α) (h : ∀ x, R (f x) (g x)) : List.Forall₂ R (l.map f) (l.map g) := by
  induction l with
  | nil => exact .nil
  | cons x l ih => exact .cons (h x) ih

theorem forall₂_mapM {α β γ : Type} {R : β → γ → Prop} {f : α → Res β} {g : α → γ} (h : ∀ x y, f x = .ok y → R y (g x)) : ∀ (l : List α) {ys : List β}, l.mapM f = .ok ys → List.Forall₂ R ys (l.map g) := by
  intro l
  induction l with
  | nil => intro ys hl; cases hl; exact .nil
  | cons x l ih =>
    intro ys hl
    rw [List.mapM_cons] at hl
    obtain ⟨y, h1, hl⟩ := res_bind_ok.mp hl
    obtain ⟨ys', h2, hl⟩ := res_bind_ok.mp hl
    cases hl
    exact .cons (h x y h1) (ih h2)

theorem mem_mapM {α β : Type} {f : α → Res β} : ∀ {l : List α} {ys : List β}, l.mapM f = .ok ys → ∀ y ∈ ys, ∃ x ∈ l, f x = .ok y := by
  intro l
  induction l with
  | nil => intro ys hl y hy; cases hl; cases hy
  | cons x l ih =>
    intro ys hl y hy
    rw [List.mapM_cons] at hl
    obtain ⟨y', h1, hl⟩ := res_bind_ok.mp hl
    obtain ⟨ys', h2, hl⟩ := res_bind_ok.mp hl
    cases hl
    rcases List.mem_cons.mp hy with rfl | hy
    · exact ⟨x, by simp, h1⟩
    · obtain ⟨x', hx', h3⟩ := ih h2 y hy
      exact ⟨x', by simp [hx'], h3⟩

theorem rCase_size (f : RForest) : f.size + 6 ≤ (rCaseBody f).size := by
  have := size_append f (rs! "_ => None")
  simp only [rCaseBody, RForest.size] at this ⊢
  omega

theorem rNext_size (f : RForest) : f.size + 30 ≤ (rNextBody f).size := by
  have := size_append f (rs! "(_, _) => unreachable!()")
  simp only [rNextBody, RForest.size] at this ⊢
  omega

/-- a function of one number: its arms -/
theorem read_rCase {text : RForest} {name : List Char} {fs : List RForest} {as : List RStmt} (hok : text.Ok) (hf : findFn name .look text = some (rCaseBody (.joinComma fs)))
    (h : List.Forall₂ ArmReads fs as) : readRustFn name (text.print ++ ['\n']) = some [.tailMatch (rs! "c") (as ++ [.arm .wild [.tail (rs! "None")]])] := by
  rw [readRustFn_print hok hf]
  have h1 := rCase_size (.joinComma fs)
  have h2 := size_joinComma fs
  have h3 := size_pos (.joinComma fs)
  obtain ⟨k, hk⟩ : ∃ k, 2 * (rCaseBody (.joinComma fs)).size = (k + (fs.length + 10)) + 1 := ⟨2 * (rCaseBody (.joinComma fs)).size - (fs.length + 11), by omega⟩
  rw [hk]
  exact read_case (arms_read h reads_else_none)

theorem call_rCase {ρ : Type} {returned : RForest → Option ρ} {text : List Char} {name : List Char} {arms : List RStmt} {c : Nat} {r : ρ}
    (h : readRustFn name text = some [.tailMatch (rs! "c") arms]) (ha : (caseMachine returned).execArms 0 (rs! "return") (.num c) arms c = .ok (.ret c r)) :
    callCase returned name text c = .ok r := by
  unfold callCase
  rw [h]
  simp only [callR]
  rw [r_execs_one, r_exec_tailMatch _ _ _ (v := .num c) rfl, ha]
  rfl

section
variable {rules : List TokenRule} {t : LexerTables} {text : List Char} (hn : ∀ r ∈ rules, IsWord r.name.toList) (h : rustLexerFile rules t = .ok text)

include hn h in
/-- the file: a stream, printed -/
theorem lexer_file_rust : ∃ cs, (lexArms t.dfa).mapM (rustArm rules) = .ok cs ∧ ∃ f, f = rustLexerTokens (.joinComma (t.alphabet.ranges.zipIdx.map rustAlphabetCase)) (.joinComma (t.alphabet.ranges.zipIdx.map rustReverseCase)) (.joinComma cs) ∧
    f.Ok ∧ text = f.print ++ ['\n'] := by
  unfold rustLexerFile at h
  obtain ⟨cs, hcs, h⟩ := res_bind_ok.mp h
  refine ⟨cs, hcs, _, rfl, ok_lexerTokens (ok_joinComma ?_) (ok_joinComma ?_) (ok_joinComma ?_), ?_⟩
  · intro f hf
    obtain ⟨r, _, rfl⟩ := List.mem_map.mp hf
    exact ok_alphabetCase r
  · intro f hf
    obtain ⟨r, _, rfl⟩ := List.mem_map.mp hf
    exact ok_reverseCase r
  · intro f hf
    obtain ⟨a, _, ha⟩ := mem_mapM hcs f hf
    exact ok_arm hn ha
  · simp only [Except.ok.injEq] at h
    exact h.symm

include hn h in
theorem call_rIndex (c : Nat) : callCase returnedIndex "get_alphabet_index".toList text c = .ok (getAlphabetIndex t.alphabet c) := by
  obtain ⟨cs, _, f, hf, hok, rfl⟩ := lexer_file_rust hn h
  refine call_rCase (read_rCase hok (by rw [hf]; exact find_index _ _ _) (forall₂_maps _ reads_alphabet)) ?_
  rw [exec_rIndex c c t.alphabet.ranges 0]
  simp [getAlphabetIndex]

include hn h in
theorem call_rRange (i : Nat) : callCase returnedRange "get_alphabet_range".toList text i = .ok t.alphabet.ranges[i]? := by
  obtain ⟨cs, _, f, hf, hok, rfl⟩ := lexer_file_rust hn h
  refine call_rCase (read_rCase hok (by rw [hf]; exact find_range _ _ _) (forall₂_maps _ reads_reverse)) ?_
  rw [exec_rRange i i t.alphabet.ranges 0 (Nat.zero_le _)]
  simp

include hn h in
theorem read_rNext {name : Nat → List Char} (hname : ∀ r w, tokenEnumName (ruleName rules r) = .ok w → name r = w) : readRustFn "next".toList text = some (rNextStmts (rArms name t)) := by
  obtain ⟨cs, hcs, f, hf, hok, rfl⟩ := lexer_file_rust hn h
  rw [readRustFn_print hok (by rw [hf]; exact find_next _ _ _)]
  have h1 := rNext_size (.joinComma cs)
  have h2 := size_joinComma cs
  obtain ⟨k, hk⟩ : ∃ k, 2 * (rNextBody (.joinComma cs)).size = (k + (cs.length + 10)) + 10 := ⟨2 * (rNextBody (.joinComma cs)).size - (cs.length + 20), by omega⟩
  rw [hk]
  exact read_next (arms_read (forall₂_mapM (fun a f hf => reads_arm hname hf) _ hcs) reads_else_unreachable)

include hn h in
theorem run_rNext {name : Nat → List Char} (hname : ∀ r w, tokenEnumName (ruleName rules r) = .ok w → name r = w) (n : Nat) (l : Lexer) (hl : l.rest.length < n) :
    rustNext text n l = (Lexer.next t l).map (fun x => (rustLexResult name x.1, x.2)) := by
  unfold rustNext
  rw [read_rNext hn h hname]
  exact exec_rNext name t (call_rIndex hn h) (call_rRange hn h) n l hl

include hn h in
theorem run_rNew (src : List Char) : rustNew text src = .ok (Lexer.new src) := by
  obtain ⟨cs, hcs, f, hf, hok, rfl⟩ := lexer_file_rust hn h
  unfold rustNew
  have hr : readRustFn "new".toList (f.print ++ ['\n']) = some [.simple (rs! "let char_iter = src.chars().peekable()"), .tail (rs! "Lexer { src, char_iter, start: 0, position: 0 }")] := by
    rw [readRustFn_print hok (by rw [hf]; exact find_new _ _ _)]
    exact rd_simple rfl rfl rfl (rd_tail rfl rfl)
  rw [hr]
  simp only [callR]
  rw [r_execs_next _ _ _ (s' := (src, some src)) (by rw [r_exec_simple]; rfl), r_execs_one, r_exec_tail]
  rfl

include hn h in
theorem run_rSpan (l : Lexer) : rustSpan text l = .ok (l.start, l.position) := by
  obtain ⟨cs, hcs, f, hf, hok, rfl⟩ := lexer_file_rust hn h
  unfold rustSpan
  have hr : readRustFn "span".toList (f.print ++ ['\n']) = some [.tail (rs! "self.start..self.position")] := by
    rw [readRustFn_print hok (by rw [hf]; exact find_span _ _ _)]
    exact rd_tail rfl rfl
  rw [hr]
  simp only [callR]
  rw [r_execs_one, r_exec_tail]
  rfl

include hn h in
theorem run_rSlice (l : Lexer) : rustSlice text l = l.slice := by
  have hsp := run_rSpan hn h
  obtain ⟨cs, hcs, f, hf, hok, rfl⟩ := lexer_file_rust hn h
  unfold rustSlice
  have hr : readRustFn "slice".toList (f.print ++ ['\n']) = some [.tail (rs! "&self.src[self.span()]")] := by
    rw [readRustFn_print hok (by rw [hf]; exact find_slice _ _ _)]
    exact rd_tail rfl rfl
  rw [hr]
  simp only [callR]
  rw [r_execs_one, r_exec_tail]
  have ha : ∀ (e : RForest) (v : Lexer → Res (List Char)), (exprMachine e v).act e l = (v l).map (ROut.ret l ·) := fun e v => if_pos rfl
  rw [show (rs! "return").append (rs! "&self.src[self.span()]") = rs! "return &self.src[self.span()]" from rfl, ha, hsp]
  simp only [bind, Except.bind]
  unfold Lexer.slice
  cases byteSlice l.src l.start l.position <;> rfl
end

theorem readVariants_joinComma (ws : List (List Char)) : readVariants (.joinComma (ws.map fun w => .word w .nil)) = some ws := by
  induction ws with
  | nil => rfl
  | cons w ws ih =>
    have := joinComma_cons (.word w .nil) (ws.map fun w => .word w .nil) .nil
    rw [rf_append_nil, rf_append_nil] at this
    rw [List.map_cons, this]
    show (if [','] = [','] then (readVariants _).map (w :: ·) else none) = _
    rw [if_pos rfl, ih]
    rfl

theorem tokens_file_rust {rules : List TokenRule} {text : List Char} (hn : ∀ r ∈ rules, IsWord r.name.toList) (h : rustTokensFile rules = .ok text) :
    ∃ ws, rules.mapM (fun r => tokenEnumName r.name.toList) = .ok ws ∧ rustEnum "TokenType".toList text = some ("EndOfFile".toList :: ws) := by
  unfold rustTokensFile at h
  obtain ⟨ws, hws, h⟩ := res_bind_ok.mp h
  refine ⟨ws, hws, ?_⟩
  simp only [Except.ok.injEq] at h
  subst h
  unfold rustEnum
  rw [rRead_print]
  · show (readVariants _).map ("EndOfFile".toList :: ·) = _
    rw [readVariants_joinComma]
    rfl
  · have hj : (RForest.joinComma (ws.map fun w => .word w .nil)).Ok := by
      apply ok_joinComma
      intro f hf
      obtain ⟨w, hw, rfl⟩ := List.mem_map.mp hf
      obtain ⟨r, hr, hrw⟩ := mem_mapM hws w hw
      exact ok_word (wordB_of (tokenEnum_word (hn r hr) hrw)) ok_nil
    rust_ok

end Verif
