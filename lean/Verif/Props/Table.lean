import Verif.Proofs.Display
import Verif.Props.Conflicts

/-!
# C66 — the table file

`outputTable g tb` is the text of the file `table`. Lines and fields are counted from 0: line 0 is the title, then come the rules, an empty line, the header, and a line for each
state; fields are what is between the bars.
-/

set_option autoImplicit false

namespace Verif

/-- The file is written for every table that is generated, with or without conflicts. -/
theorem C66_total (g : Grammar) (wf : g.WF) (hne : NoEmptyRhs g) (allow : Bool) (kind : LRKind) (fuel : Nat) (tb : LRTable) (cs : List Conflict)
    (h : generateTable g allow kind fuel = .ok (.noConflicts tb) ∨ generateTable g allow kind fuel = .ok (.allowedConflicts tb cs)) : ∃ text, outputTable g tb = .ok text :=
  outputTable_ok wf (table_cellRules wf hne h)

section
variable (g : Grammar) (wf : g.WF) (hne : NoEmptyRhs g) (allow : Bool) (kind : LRKind) (fuel : Nat) (tb : LRTable) (cs : List Conflict)
  (h : generateTable g allow kind fuel = .ok (.noConflicts tb) ∨ generateTable g allow kind fuel = .ok (.allowedConflicts tb cs))
  (hn : NamesLack g '\n') (hb : NamesLack g '|') (text : List Char) (ht : outputTable g tb = .ok text)
include wf hne h hn hb ht

/-- In the line of a state and the column of a symbol stands what the table has there. -/
theorem C66_cells (q : Nat) (hq : q < tb.stateCount) (i : Nat) (s : Sym) (hs : (g.symbols ++ [Sym.eof])[i]? = some s) :
    ∃ cell, fieldAt text (g.rules.length + 3 + q) (i + 1) = some cell ∧ CellSays (trimmed cell) (tb.get q s) := by
  obtain ⟨lines, h1, h2, _, _, _, h3⟩ := outputTable_lines (table_cellRules wf hne h) hn hb ht
  obtain ⟨line, fields, f1, f2, f3, _, f4⟩ := h3 q hq
  obtain ⟨f, f5, f6⟩ := f4 i s hs
  refine ⟨f, ?_, f6⟩
  have := fieldAt_of (rest := []) (tail := []) h2 f1 (by rw [f2]; simp) f3 f5
  rw [h1]
  simpa using this

/-- The line of a state begins with its number, with zeros in front so that all have the width of the number of states. -/
theorem C66_label (q : Nat) (hq : q < tb.stateCount) :
    ∃ label, fieldAt text (g.rules.length + 3 + q) 0 = some label ∧ ∃ k, label = List.replicate k '0' ++ decimal q ∧ label.length = max (decimal tb.stateCount).length (decimal q).length := by
  obtain ⟨lines, h1, h2, _, _, _, h3⟩ := outputTable_lines (table_cellRules wf hne h) hn hb ht
  obtain ⟨line, fields, f1, f2, f3, f0, _⟩ := h3 q hq
  refine ⟨padZero (decimal tb.stateCount).length q, ?_, (decimal tb.stateCount).length - (decimal q).length, rfl, ?_⟩
  · have := fieldAt_of (rest := []) (tail := []) h2 f1 (by rw [f2]; simp) f3 f0
    rw [h1]
    simpa using this
  · simp only [padZero, List.length_append, List.length_replicate]
    omega

/-- The header names the symbols of the columns. -/
theorem C66_header (i : Nat) (s : Sym) (hs : (g.symbols ++ [Sym.eof])[i]? = some s) : ∃ name, NamesSymbol g s name ∧ fieldAt text (g.rules.length + 2) (i + 1) = some name := by
  obtain ⟨lines, h1, h2, _, _, ⟨line, fields, f1, f2, f3, f4⟩, _⟩ := outputTable_lines (table_cellRules wf hne h) hn hb ht
  obtain ⟨n, n1, n2⟩ := f4 i s hs
  refine ⟨n, symbolName_shows n1, ?_⟩
  have := fieldAt_of (rest := []) (tail := []) h2 f1 (by rw [f2]; simp) f3 n2
  rw [h1]
  simpa using this

/-- Rule number `i` is shown in line `i + 1`, with its number. -/
theorem C66_rules (i : Nat) (r : Rule) (hr : g.rules[i]? = some r) : ∃ t, ShowsRule g r t ∧ (split '\n' text)[i + 1]? = some (decimal i ++ ": ".toList ++ t) := by
  obtain ⟨lines, h1, h2, h3, h4, _, _⟩ := outputTable_lines (table_cellRules wf hne h) hn hb ht
  obtain ⟨t, t1, t2⟩ := h4 i r hr
  refine ⟨t, ruleText_shows t1, ?_⟩
  have := split_flatten lines h2 []
  rw [List.append_nil, ← h1] at this
  rw [this, List.getElem?_append_left (by have := getElem?_lt hr; omega), t2]

/-- What the cells say is what the generated Rust parser does. For a token: `s` and a state, if it shifts and goes to this state; `r` and a number, if it reduces this rule;
otherwise it reports an error. For a non-terminal: `s` and a state, if it goes there; `a`, if it accepts. -/
theorem C66_parser (p : LRProg) (hp : genRust g tb = .ok p) (q : Nat) (hq : q < tb.stateCount) (i : Nat) (s : Sym) (hs : (g.symbols ++ [Sym.eof])[i]? = some s) :
    ∃ cell, fieldAt text (g.rules.length + 3 + q) (i + 1) = some cell ∧
      (∀ a, s = .t a → (∀ n, trimmed cell = 's' :: decimal n ↔ p.nextAction q (.tok a) = .act .shift ∧ p.nextGoto q (.terminal (.tok a)) = some (.state n)) ∧
        (∀ j, trimmed cell = 'r' :: decimal j ↔ p.nextAction q (.tok a) = .act (.reduce j))) ∧
      (s = .eof → ∀ j, trimmed cell = 'r' :: decimal j ↔ p.nextAction q .eof = .act (.reduce j)) ∧
      (∀ A, s = .nt A → (∀ n, trimmed cell = 's' :: decimal n ↔ p.nextGoto q (.nonTerminal A) = some (.state n)) ∧
        (trimmed cell = ['a'] ↔ p.nextGoto q (.nonTerminal A) = some .accept)) := by
  obtain ⟨cell, h1, h2⟩ := C66_cells g wf hne allow kind fuel tb cs h hn hb text ht q hq i s hs
  have hsp := genRust_spec hp
  have hcell : CellOk tb q s := hsp.cells q hq s (List.mem_of_getElem? hs)
  have hmem : s ∈ g.symbols ∨ s = .eof := by simpa using List.mem_of_getElem? hs
  have key : (∀ n, trimmed cell = 's' :: decimal n ↔ tb.get q s = some [.shift n]) ∧ (∀ j, trimmed cell = 'r' :: decimal j ↔ tb.get q s = some [.reduce (some j)]) ∧
      (trimmed cell = ['a'] ↔ tb.get q s = some [.accept]) := by
    generalize trimmed cell = c at h2
    generalize hcon : tb.get q s = o at h2
    cases h2 with
    | nothing => simp
    | shift n => simpa using fun m => ⟨fun e => decimal_inj e, fun e => by rw [e]⟩
    | reduce n => simpa using fun m => ⟨fun e => decimal_inj e, fun e => by rw [e]⟩
    | error => simp
    | accept => simp
    | conflict e e' es =>
      unfold CellOk at hcell
      rw [hcon] at hcell
      simp at hcell
  obtain ⟨k1, k2, k3⟩ := key
  have hact : ∀ a, actOf tb q s = some a ↔ (a = .shift ∧ ∃ n, tb.get q s = some [.shift n]) ∨ ∃ j, a = .reduce j ∧ tb.get q s = some [.reduce (some j)] := by
    intro a
    unfold actOf
    split
    · rename_i n hn; rw [hn]; simp; exact ⟨fun e => e.symm, fun e => e.symm⟩
    · rename_i n hn; rw [hn]; simp; exact ⟨fun e => e.symm, fun e => e.symm⟩
    · rename_i h3 h4
      constructor
      · intro h; cases h
      · rintro (⟨_, n, hn⟩ | ⟨j, _, hj⟩)
        · exact absurd hn (h3 n)
        · exact absurd hj (h4 j)
  have hgoto : ∀ x, gotoOf tb q s = some x ↔ (∃ n, x = .state n ∧ tb.get q s = some [.shift n]) ∨ (x = .accept ∧ tb.get q s = some [.accept]) := by
    intro x
    unfold gotoOf
    split
    · rename_i n hn; rw [hn]; simp; exact ⟨fun e => e.symm, fun e => e.symm⟩
    · rename_i hn; rw [hn]; simp; exact ⟨fun e => e.symm, fun e => e.symm⟩
    · rename_i h3 h4
      constructor
      · intro h; cases h
      · rintro (⟨n, _, hn⟩ | ⟨_, hj⟩)
        · exact absurd hn (h3 n)
        · exact absurd hj h4
  refine ⟨cell, h1, ?_, ?_, ?_⟩
  · rintro a rfl
    have hm : Sym.t a ∈ g.symbols := hmem.resolve_right (by simp)
    have hmt : Sym.t a ∈ g.terminals := by
      rcases List.mem_append.mp hm with h | h
      · exact h
      · obtain ⟨A, hA⟩ := wf.nts _ h; cases hA
    have ha : ∀ x, p.nextAction q (.tok a) = .act x ↔ actOf tb q (.t a) = some x := by
      intro x
      rw [hsp.action q hq]
      simp only [Tok.sym, Option.bind_some, List.mem_append, hmt, true_or, if_true]
      cases actOf tb q (.t a) <;> simp
    have hg : p.nextGoto q (.terminal (.tok a)) = gotoOf tb q (.t a) := by
      rw [hsp.goto q hq]
      simp [StackSym.sym, hm]
    refine ⟨fun n => ?_, fun j => ?_⟩
    · rw [k1, ha, hg, hact, hgoto]
      constructor
      · intro h; exact ⟨.inl ⟨rfl, n, h⟩, .inl ⟨n, rfl, h⟩⟩
      · rintro ⟨_, ⟨m, e, h⟩ | ⟨e, _⟩⟩
        · cases e; exact h
        · cases e
    · rw [k2, ha, hact]
      constructor
      · intro h; exact .inr ⟨j, rfl, h⟩
      · rintro (⟨e, _⟩ | ⟨m, e, h⟩)
        · cases e
        · cases e; exact h
  · rintro rfl j
    rw [k2]
    have : ∀ x, p.nextAction q .eof = .act x ↔ actOf tb q Sym.eof = some x := by
      intro x
      rw [hsp.action q hq]
      simp only [Tok.sym, Option.bind_some, List.mem_append, List.mem_singleton, or_true, if_true]
      cases actOf tb q Sym.eof <;> simp
    rw [this, hact]
    constructor
    · intro h; exact .inr ⟨j, rfl, h⟩
    · rintro (⟨e, _⟩ | ⟨m, e, h⟩)
      · cases e
      · cases e; exact h
  · rintro A rfl
    have hm : Sym.nt A ∈ g.symbols := hmem.resolve_right (by simp)
    have hg : p.nextGoto q (.nonTerminal A) = gotoOf tb q (.nt A) := by
      rw [hsp.goto q hq]
      simp [StackSym.sym, hm]
    refine ⟨fun n => ?_, ?_⟩
    · rw [k1, hg, hgoto]
      constructor
      · intro h; exact .inl ⟨n, rfl, h⟩
      · rintro (⟨m, e, h⟩ | ⟨e, _⟩)
        · cases e; exact h
        · cases e
    · rw [k3, hg, hgoto]
      constructor
      · intro h; exact .inr ⟨rfl, h⟩
      · rintro (⟨m, e, h⟩ | ⟨_, h⟩)
        · cases e
        · exact h

end

/-- what stands before the last closing parenthesis, back to the opening one before it -/
private theorem number_of {x y d d' : List Char} (hd : ∀ c ∈ d, c.isDigit = true) (hd' : ∀ c ∈ d', c.isDigit = true) (h : x ++ ['('] ++ d ++ [')'] = y ++ ['('] ++ d' ++ [')']) : d = d' := by
  have h := List.append_cancel_right h
  have h2 := congrArg (fun l => l.reverse.takeWhile Char.isDigit) h
  have key : ∀ (x d : List Char), (∀ c ∈ d, c.isDigit = true) → ((x ++ ['('] ++ d).reverse.takeWhile Char.isDigit) = d.reverse := by
    intro x d hd
    have : (x ++ ['('] ++ d).reverse = d.reverse ++ '(' :: x.reverse := by simp
    rw [this, List.takeWhile_append_of_pos (fun c hc => hd c (by simpa using hc)), List.takeWhile_cons_of_neg (by decide), List.append_nil]
  simp only [key x d hd, key y d' hd'] at h2
  simpa using h2

theorem name_symbol {g : Grammar} {s s' : Sym} {n : List Char} (h : NamesSymbol g s n) (h' : NamesSymbol g s' n) :
    s = s' ∨ ∃ k, (s = .t k ∧ s' = .nt k) ∨ (s = .nt k ∧ s' = .t k) := by
  have shape : ∀ s, NamesSymbol g s n → (s = .eps ∧ n = "<eps>".toList) ∨ (s = .eof ∧ n = "<end>".toList) ∨ ∃ x k, (s = .t k ∨ s = .nt k) ∧ n = x ++ ['('] ++ decimal k ++ [')'] := by
    intro s h
    cases h with
    | eps => exact .inl ⟨rfl, rfl⟩
    | eof => exact .inr (.inl ⟨rfl, rfl⟩)
    | token => exact .inr (.inr ⟨_, _, .inl rfl, rfl⟩)
    | production => exact .inr (.inr ⟨_, _, .inr rfl, rfl⟩)
    | helper => exact .inr (.inr ⟨"<anon>".toList, _, .inr rfl, rfl⟩)
  have last : ∀ (x : List Char) (k : Nat), (x ++ ['('] ++ decimal k ++ [')']).getLast? = some ')' := fun x k => List.getLast?_concat
  rcases shape s h with ⟨e, e1⟩ | ⟨e, e1⟩ | ⟨x, k, e, e1⟩ <;> rcases shape s' h' with ⟨e', e1'⟩ | ⟨e', e1'⟩ | ⟨y, k', e', e1'⟩
  · exact .inl (e.trans e'.symm)
  · rw [e1] at e1'; exact absurd e1' (by decide)
  · have := last y k'; rw [← e1', e1] at this; exact absurd this (by decide)
  · rw [e1] at e1'; exact absurd e1' (by decide)
  · exact .inl (e.trans e'.symm)
  · have := last y k'; rw [← e1', e1] at this; exact absurd this (by decide)
  · have := last x k; rw [← e1, e1'] at this; exact absurd this (by decide)
  · have := last x k; rw [← e1, e1'] at this; exact absurd this (by decide)
  · have hk : k = k' := decimal_inj (number_of (fun c hc => decimal_digit hc) (fun c hc => decimal_digit hc) (e1.symm.trans e1'))
    subst hk
    rcases e with rfl | rfl <;> rcases e' with rfl | rfl
    · exact .inl rfl
    · exact .inr ⟨k, .inl ⟨rfl, rfl⟩⟩
    · exact .inr ⟨k, .inr ⟨rfl, rfl⟩⟩
    · exact .inl rfl

/-- The header tells the columns apart: two symbols have the same text there only if they are a token and a production with the same name and the same number. -/
theorem C66_names (g : Grammar) (wf : g.WF) (hne : NoEmptyRhs g) (allow : Bool) (kind : LRKind) (fuel : Nat) (tb : LRTable) (cs : List Conflict)
    (h : generateTable g allow kind fuel = .ok (.noConflicts tb) ∨ generateTable g allow kind fuel = .ok (.allowedConflicts tb cs))
    (hn : NamesLack g '\n') (hb : NamesLack g '|') (text : List Char) (ht : outputTable g tb = .ok text) (i j : Nat) (s s' : Sym)
    (hs : (g.symbols ++ [Sym.eof])[i]? = some s) (hs' : (g.symbols ++ [Sym.eof])[j]? = some s') (he : fieldAt text (g.rules.length + 2) (i + 1) = fieldAt text (g.rules.length + 2) (j + 1)) :
    s = s' ∨ ∃ k, (s = .t k ∧ s' = .nt k) ∨ (s = .nt k ∧ s' = .t k) := by
  obtain ⟨n, h1, h2⟩ := C66_header g wf hne allow kind fuel tb cs h hn hb text ht i s hs
  obtain ⟨n', h1', h2'⟩ := C66_header g wf hne allow kind fuel tb cs h hn hb text ht j s' hs'
  rw [h2, h2'] at he
  cases he
  exact name_symbol h1 h1'

/-- the file written for a grammar, if there is one -/
def tableFile (g : Grammar) (kind : LRKind) (fuel : Nat) : Option (List Char) :=
  match generateTable g true kind fuel with
  | .ok (.noConflicts tb) => (outputTable g tb).toOption
  | .ok (.allowedConflicts tb _) => (outputTable g tb).toOption
  | _ => none

-- the hypotheses are met, and the file
example : parenGrammar.WF ∧ NoEmptyRhs parenGrammar ∧ NamesLack parenGrammar '\n' ∧ NamesLack parenGrammar '|' :=
  ⟨C19_well_formed _ _ parenGrammar_built, by decide, by unfold NamesLack; decide, by unfold NamesLack; decide⟩

example : tableFile parenGrammar .lr0 60 = some ("Rules:\n0: s(0) -> ((0) s(0) )(1)\n1: s(0) -> x(2)\n\n |((0)|)(1)|x(2)|s(0)|<end>|\n" ++
    "0|s1  |e   |s2  |a   |     |\n1|s1  |e   |s2  |s3  |     |\n2|r1  |r1  |r1  |r1  |r1   |\n3|e   |s4  |e   |e   |     |\n4|r0  |r0  |r0  |r0  |r0   |\n").toList := by
  decide +kernel

end Verif
