import Verif.Spec.Lapex
import Verif.Proofs.LapexGrammar
import Verif.Proofs.LexHist

/-! # The visitor of the lapex input parser -/

set_option autoImplicit false

namespace Verif

/-- what a stack entry was made from -/
inductive RawAst where
  | tok (d : TokenData)
  | pat (sp : SourceSpan) (p : ProdPattern)
  | rule (r : Spanned RawRule)
  | rules (rs : List (Spanned RawRule))
  | tag (sp : SourceSpan) (t : Option TokenData)
  | prec (sp : SourceSpan) (t : Option TokenData)

def buildPrec : Option TokenData → Res (Option Nat)
  | none => .ok none
  | some d => match parseU16 d.text with | none => .error .panic | some n => .ok (some n)

def buildRule (syn : List Char → Option Hir) (r : Spanned RawRule) : Res (Spanned LapexRule) :=
  match r.inner with
  | .entry n => .ok ⟨r.span, .entry n.name⟩
  | .prod n tag p => .ok ⟨r.span, .prod ⟨n.name, tag.map TokenData.name, p⟩⟩
  | .token n prec d => do
    let k ← buildPrec prec
    let p ← tokenPatternOf syn d.text
    .ok ⟨r.span, .token ⟨n.name, k, p⟩⟩

def buildRules (syn : List Char → Option Hir) : List (Spanned RawRule) → Res (List (Spanned LapexRule))
  | [] => .ok []
  | r :: rs => do
    let x ← buildRule syn r
    let xs ← buildRules syn rs
    .ok (x :: xs)

def RawAst.build (syn : List Char → Option Hir) : RawAst → Res (Spanned Ast)
  | .tok d => .ok ⟨d.span, .token d.text⟩
  | .pat sp p => .ok ⟨sp, .pattern p⟩
  | .rule r => do
    let x ← buildRule syn r
    .ok ⟨x.span, .rule x.inner⟩
  | .rules rs => do
    let xs ← buildRules syn rs
    .ok (.zero (.rules xs.reverse))
  | .tag sp t => .ok ⟨sp, .tag (t.map TokenData.name)⟩
  | .prec sp t => do
    let n ← buildPrec t
    .ok ⟨sp, .precedence n⟩

def pushAll (syn : List Char → Option Hir) : List RawAst → AstStack → Res AstStack
  | [], s => .ok s
  | r :: rs, s => do
    let a ← r.build syn
    pushAll syn rs (a :: s)

def spanOf (a b : SourceSpan) : SourceSpan := ⟨a.start, b.stop⟩
def zeroSpan : SourceSpan := ⟨⟨0, 0⟩, ⟨0, 0⟩⟩

/-- what a rule makes of its parts -/
inductive Combine : Nat → List RawAst → RawAst → Prop
  | r0 (r : Spanned RawRule) : Combine 0 [.rule r] (.rules [r])
  | r1 (r : Spanned RawRule) (rs : List (Spanned RawRule)) : Combine 1 [.rule r, .rules rs] (.rules (r :: rs))
  | r2 (r : Spanned RawRule) : Combine 2 [.rule r] (.rule r)
  | r3 (r : Spanned RawRule) : Combine 3 [.rule r] (.rule r)
  | r4 (r : Spanned RawRule) : Combine 4 [.rule r] (.rule r)
  | r5 (k : TokenData) (n : TokenData) (s : TokenData) : Combine 5 [.tok k, .tok n, .tok s] (.rule ⟨spanOf k.span s.span, .entry n⟩)
  | r6 (sp : SourceSpan) (t : Option TokenData) : Combine 6 [.tag sp t] (.tag sp t)
  | r7 : Combine 7 [] (.tag zeroSpan none)
  | r8 (k : TokenData) (n : TokenData) (x1 : SourceSpan) (t : Option TokenData) (x2 : TokenData) (x3 : SourceSpan) (p : ProdPattern) (s : TokenData) : Combine 8 [.tok k, .tok n, .tag x1 t, .tok x2, .pat x3 p, .tok s] (.rule ⟨spanOf k.span s.span, .prod n t p⟩)
  | r9 (sp : SourceSpan) (t : Option TokenData) : Combine 9 [.prec sp t] (.prec sp t)
  | r10 : Combine 10 [] (.prec zeroSpan none)
  | r11 (k : TokenData) (n : TokenData) (x1 : SourceSpan) (t : Option TokenData) (x2 : TokenData) (d : TokenData) (s : TokenData) : Combine 11 [.tok k, .tok n, .prec x1 t, .tok x2, .tok d, .tok s] (.rule ⟨spanOf k.span s.span, .token n t d⟩)
  | r12 (l : TokenData) (d : TokenData) (r : TokenData) : Combine 12 [.tok l, .tok d, .tok r] (.prec (spanOf l.span r.span) (some d))
  | r13 (l : TokenData) (d : TokenData) (r : TokenData) : Combine 13 [.tok l, .tok d, .tok r] (.tag (spanOf l.span r.span) (some d))
  | r14 (d : TokenData) : Combine 14 [.tok d] (.tok d)
  | r15 (d : TokenData) : Combine 15 [.tok d] (.tok d)
  | r16 (sp : SourceSpan) (p : ProdPattern) : Combine 16 [.pat sp p] (.pat sp p)
  | r17 (d : TokenData) : Combine 17 [.tok d] (.pat d.span .epsilon)
  | r18 (sp : SourceSpan) (p : ProdPattern) (x1 : TokenData) (sq : SourceSpan) (q : ProdPattern) : Combine 18 [.pat sp p, .tok x1, .pat sq q] (.pat (spanOf sp sq) (joinAlt p q))
  | r19 (sp : SourceSpan) (p : ProdPattern) : Combine 19 [.pat sp p] (.pat sp p)
  | r20 (sp : SourceSpan) (p : ProdPattern) (sq : SourceSpan) (q : ProdPattern) : Combine 20 [.pat sp p, .pat sq q] (.pat (spanOf sp sq) (joinSeq p q))
  | r21 (sp : SourceSpan) (p : ProdPattern) : Combine 21 [.pat sp p] (.pat sp p)
  | r22 (sp : SourceSpan) (p : ProdPattern) : Combine 22 [.pat sp p] (.pat sp p)
  | r23 (sp : SourceSpan) (p : ProdPattern) : Combine 23 [.pat sp p] (.pat sp p)
  | r24 (sp : SourceSpan) (p : ProdPattern) : Combine 24 [.pat sp p] (.pat sp p)
  | r25 (sp : SourceSpan) (p : ProdPattern) : Combine 25 [.pat sp p] (.pat sp p)
  | r26 (sp : SourceSpan) (p : ProdPattern) (o : TokenData) : Combine 26 [.pat sp p, .tok o] (.pat (spanOf sp o.span) (.optional p))
  | r27 (sp : SourceSpan) (p : ProdPattern) (o : TokenData) : Combine 27 [.pat sp p, .tok o] (.pat (spanOf sp o.span) (.zeroOrMany p))
  | r28 (sp : SourceSpan) (p : ProdPattern) (o : TokenData) : Combine 28 [.pat sp p, .tok o] (.pat (spanOf sp o.span) (.oneOrMany p))
  | r29 (n : TokenData) : Combine 29 [.tok n] (.pat n.span (.rule n.name))
  | r30 (l : TokenData) (x1 : SourceSpan) (p : ProdPattern) (r : TokenData) : Combine 30 [.tok l, .pat x1 p, .tok r] (.pat (spanOf l.span r.span) p)

/-- the callbacks by rule number -/
def callbacks (syn : List Char → Option Hir) : List (AstStack → Res AstStack) := [
  reduceRules1, reduceRules2, .ok, .ok, .ok, reduceEntryRule, .ok, fun s => .ok (.zero (.tag none) :: s), reduceProdRule,
  .ok, fun s => .ok (.zero (.precedence none) :: s), reduceTokenRule syn, reducePrecedence, reduceTag, .ok, .ok, .ok, reducePattern2,
  reduceAlternative1, .ok, reduceConcatenation1, .ok, .ok, .ok, .ok, .ok, reduceRepetition .optional, reduceRepetition .zeroOrMany, reduceRepetition .oneOrMany,
  reduceItem1, reduceItem2]

theorem ruleVisits_lapex : ruleVisits lapexRules lapexGrammar = [
  (0, "reduce_rules_1".toList), (1, "reduce_rules_2".toList), (2, "reduce_rule_1".toList), (3, "reduce_rule_2".toList), (4, "reduce_rule_3".toList),
  (5, "reduce_entry_rule".toList), (8, "reduce_prod_rule".toList), (11, "reduce_token_rule".toList), (12, "reduce_precedence".toList), (13, "reduce_tag".toList),
  (14, "reduce_string_or_regex_1".toList), (15, "reduce_string_or_regex_2".toList), (16, "reduce_pattern_1".toList), (17, "reduce_pattern_2".toList),
  (18, "reduce_alternative_1".toList), (19, "reduce_alternative_2".toList), (20, "reduce_concatenation_1".toList), (21, "reduce_concatenation_2".toList),
  (22, "reduce_unary_1".toList), (23, "reduce_unary_2".toList), (24, "reduce_unary_3".toList), (25, "reduce_unary_4".toList), (26, "reduce_option".toList),
  (27, "reduce_repetition_zero".toList), (28, "reduce_repetition_one".toList), (29, "reduce_item_1".toList), (30, "reduce_item_2".toList),
  (6, "reduce_anon26_1".toList), (7, "reduce_anon26_2".toList), (9, "reduce_anon27_1".toList), (10, "reduce_anon27_2".toList)] := by decide +kernel

theorem lookup_findIdx {α β : Type} [BEq α] [LawfulBEq α] [DecidableEq α] (l : List (α × β)) (a : α) (i : Nat) (f : β) (h : (l.map (·.1)).findIdx? (fun x => x = a) = some i)
    (hf : (l.map (·.2))[i]? = some f) : l.lookup a = some f := by
  induction l generalizing i with
  | nil => cases h
  | cons x l ih =>
    obtain ⟨y, g⟩ := x
    rw [List.map_cons, List.findIdx?_cons] at h
    by_cases hy : y = a
    · subst hy
      simp only [decide_true, if_true, Option.some.injEq] at h
      subst h
      simp only [List.map_cons, List.getElem?_cons_zero, Option.some.injEq] at hf
      subst hf
      simp [List.lookup]
    · simp only [hy, decide_false] at h
      rw [if_neg (by simp)] at h
      obtain ⟨j, hj, rfl⟩ := Option.map_eq_some_iff.mp h
      have : (a == y) = false := by simpa using fun e => hy e.symm
      rw [List.lookup, this]
      exact ih j hj (by simpa using hf)

/-- the names of the methods, and where the method of each rule is in the list -/
def visitorNames : List (List Char) := (lapexVisitor (fun _ => none)).map (·.1)

def visitorIndex : List Nat := [21, 22, 18, 19, 20, 14, 29, 30, 4, 26, 27, 12, 25, 28, 23, 24, 10, 11, 16, 17, 8, 9, 0, 1, 2, 3, 13, 5, 15, 6, 7]

theorem visitorIndex_ok : ∀ k < 31, ((ruleVisits lapexRules lapexGrammar).lookup k).bind (fun name => visitorNames.findIdx? (fun x => x = name)) = visitorIndex[k]? := by
  decide +kernel

theorem callbacks_eq (syn : List Char → Option Hir) : callbacks syn = visitorIndex.filterMap fun i => ((lapexVisitor syn).map (·.2))[i]? := rfl

theorem visitorIndex_lt : ∀ k < 31, ∃ i, visitorIndex[k]? = some i ∧ i < 31 := by decide

theorem visit_reduce (syn : List Char → Option Hir) (k : Nat) (f : AstStack → Res AstStack) (h : (callbacks syn)[k]? = some f) (s : AstStack) :
    lapexVisit syn s (.reduce k) = f s := by
  have hk : k < 31 := getElem?_lt h
  have hi := visitorIndex_ok k hk
  obtain ⟨i, h1, h2⟩ := visitorIndex_lt k hk
  rw [h1] at hi
  obtain ⟨name, e1, e2⟩ := Option.bind_eq_some_iff.mp hi
  unfold lapexVisit
  simp only [e1]
  have hf : ((lapexVisitor syn).map (·.2))[i]? = some f := by
    rw [← h]
    have : ∀ k < 31, ∀ i, visitorIndex[k]? = some i → ((lapexVisitor syn).map (·.2))[i]? = (callbacks syn)[k]? := by
      have hall : visitorIndex.map (fun i => ((lapexVisitor syn).map (·.2))[i]?) = (callbacks syn).map some := rfl
      intro k hk i hi
      have := congrArg (fun l => l[k]?) hall
      simp only [List.getElem?_map, hi, Option.map_some] at this
      cases hc : (callbacks syn)[k]? with
      | none => rw [hc] at this; cases this
      | some x => rw [hc] at this; simpa using this
    exact this k hk i h1
  rw [lookup_findIdx (lapexVisitor syn) name i f e2 hf]

theorem res_ok_bind {α β : Type} (a : α) (f : α → Res β) : ((Except.ok a : Res α) >>= f) = f a := rfl

theorem joinSeq_eq (p q : ProdPattern) : joinSeq p q = .sequence (p :: sequenceElements q) := by cases q <;> rfl
theorem joinAlt_eq (p q : ProdPattern) : joinAlt p q = .alternative (alternativeElements q ++ [p]) := by cases q <;> rfl

theorem combine_visit (syn : List Char → Option Hir) {k : Nat} {raws : List RawAst} {raw : RawAst} (h : Combine k raws raw) (s : AstStack) :
    (pushAll syn raws s >>= fun s => lapexVisit syn s (.reduce k)) = pushAll syn [raw] s := by
  have key : ∀ f, (callbacks syn)[k]? = some f → (pushAll syn raws s >>= f) = pushAll syn [raw] s →
      (pushAll syn raws s >>= fun s => lapexVisit syn s (.reduce k)) = pushAll syn [raw] s := by
    intro f hf hp
    rw [← hp]
    congr 1
    funext s'
    exact visit_reduce syn k f hf s'
  cases h
  all_goals (refine key _ rfl ?_)
  all_goals simp only [pushAll, RawAst.build, res_ok_bind, pure_bind, bind_assoc]
  all_goals try rfl
  case r0 r =>
    simp only [buildRules, res_ok_bind, bind_assoc]
    cases buildRule syn r <;> rfl
  case r1 r rs =>
    simp only [buildRules, bind_assoc]
    cases buildRule syn r with
    | error e => rfl
    | ok x =>
      simp only [res_ok_bind, bind_assoc]
      cases buildRules syn rs with
      | error e => rfl
      | ok xs =>
        simp only [res_ok_bind, reduceRules2, popRules, popRule, Spanned.zero, List.reverse_cons]
  case r11 k n sp t x d s' =>
    simp only [buildRule, bind_assoc]
    cases buildPrec t with
    | error e => rfl
    | ok m =>
      simp only [res_ok_bind, reduceTokenRule, popAny, popToken, popPrecedence, List.drop_succ_cons, List.drop_zero]
      cases tokenPatternOf syn d.text <;> rfl
  case r12 l d r =>
    simp only [buildPrec, reducePrecedence, popAny, popToken, res_ok_bind]
    cases parseU16 d.text <;> rfl
  case r18 => rw [joinAlt_eq]; rfl
  case r20 => rw [joinSeq_eq]; rfl

/-! ## readings of symbols -/

/-- how the tokens of a non-terminal are read -/
inductive ReadsNt : Nat → Tokens → RawAst → Prop
  | file {w : Tokens} {rs : List (Spanned RawRule)} : FileText joinSeq joinAlt w rs → ReadsNt 0 w (.rules rs)
  | rule {w : Tokens} {r : Spanned RawRule} : RuleText joinSeq joinAlt w r → ReadsNt 2 w (.rule r)
  | entryRule {w : Tokens} {r : Spanned RawRule} : RuleText joinSeq joinAlt w r → ReadsNt 5 w (.rule r)
  | prodRule {w : Tokens} {r : Spanned RawRule} : RuleText joinSeq joinAlt w r → ReadsNt 6 w (.rule r)
  | tokenRule {w : Tokens} {r : Spanned RawRule} : RuleText joinSeq joinAlt w r → ReadsNt 7 w (.rule r)
  | prec {w : Tokens} {d : Option TokenData} (sp : SourceSpan) : Bracketed Lx.digit w d → ReadsNt 8 w (.prec sp d)
  | tag {w : Tokens} {d : Option TokenData} (sp : SourceSpan) : Bracketed Lx.ident w d → ReadsNt 9 w (.tag sp d)
  | str (d : TokenData) {kind : Nat} : kind = Lx.string ∨ kind = Lx.regex → ReadsNt 10 [(kind, d)] (.tok d)
  | pattern {w : Tokens} {p : ProdPattern} (sp : SourceSpan) : Body joinSeq joinAlt .pattern w p → ReadsNt 12 w (.pat sp p)
  | alternative {w : Tokens} {p : ProdPattern} (sp : SourceSpan) : Body joinSeq joinAlt .alternative w p → ReadsNt 14 w (.pat sp p)
  | concatenation {w : Tokens} {p : ProdPattern} (sp : SourceSpan) : Body joinSeq joinAlt .concatenation w p → ReadsNt 16 w (.pat sp p)
  | unary {w : Tokens} {p : ProdPattern} (sp : SourceSpan) : Body joinSeq joinAlt .unary w p → ReadsNt 18 w (.pat sp p)
  | opt {w : Tokens} {p : ProdPattern} (sp : SourceSpan) : Body joinSeq joinAlt .unary w p → ReadsNt 22 w (.pat sp p)
  | star {w : Tokens} {p : ProdPattern} (sp : SourceSpan) : Body joinSeq joinAlt .unary w p → ReadsNt 23 w (.pat sp p)
  | plus {w : Tokens} {p : ProdPattern} (sp : SourceSpan) : Body joinSeq joinAlt .unary w p → ReadsNt 24 w (.pat sp p)
  | item {w : Tokens} {p : ProdPattern} (sp : SourceSpan) : Body joinSeq joinAlt .item w p → ReadsNt 25 w (.pat sp p)
  | tagOpt {w : Tokens} {d : Option TokenData} (sp : SourceSpan) : Bracketed Lx.ident w d → ReadsNt 26 w (.tag sp d)
  | precOpt {w : Tokens} {d : Option TokenData} (sp : SourceSpan) : Bracketed Lx.digit w d → ReadsNt 27 w (.prec sp d)

inductive ReadsAll : List Sym → Tokens → List RawAst → Prop
  | nil : ReadsAll [] [] []
  | eps {ss : List Sym} {w : Tokens} {rs : List RawAst} : ReadsAll ss w rs → ReadsAll (.eps :: ss) w rs
  | term {a : Nat} {d : TokenData} {ss : List Sym} {w : Tokens} {rs : List RawAst} : ReadsAll ss w rs → ReadsAll (.t a :: ss) ((a, d) :: w) (.tok d :: rs)
  | nonterm {A : Nat} {r : RawAst} {ss : List Sym} {u v : Tokens} {rs : List RawAst} : ReadsNt A u r → ReadsAll ss v rs → ReadsAll (.nt A :: ss) (u ++ v) (r :: rs)

theorem ruleText_prod {u v : Tokens} {tag : Option TokenData} {p : ProdPattern} (k n e s : TokenData) (hu : Bracketed Lx.ident u tag) (hv : Body joinSeq joinAlt .pattern v p) :
    RuleText joinSeq joinAlt ((2, k) :: (15, n) :: (u ++ (3, e) :: (v ++ [(4, s)]))) ⟨spanOf k.span s.span, .prod n tag p⟩ := by
  have := RuleText.prod k n e s hu hv
  simp only [List.append_assoc, List.cons_append, List.nil_append] at this
  exact this

theorem reads_node {k : Nat} {r : Rule} (hk : lapexGrammar.rules[k]? = some r) {w : Tokens} {raws : List RawAst} (h : ReadsAll r.rhs w raws) :
    ∃ raw, Combine k raws raw ∧ ReadsNt r.lhs w raw := by
  have hlt : k < 31 := getElem?_lt hk
  match k, hlt with
  | 0, _ =>
    cases hk
    cases ‹ReadsAll _ _ _›
    cases ‹ReadsAll _ _ _›
    cases ‹ReadsNt _ _ _›
    exact ⟨_, .r0 _, by simpa using .file (.one ‹_›)⟩
  | 1, _ =>
    cases hk
    cases ‹ReadsAll _ _ _›
    cases ‹ReadsAll _ _ _›
    cases ‹ReadsAll _ _ _›
    cases ‹ReadsNt _ _ _›
    cases ‹ReadsNt _ _ _›
    exact ⟨_, .r1 _ _, by simpa using .file (.more ‹_› ‹_›)⟩
  | 2, _ =>
    cases hk
    cases ‹ReadsAll _ _ _›
    cases ‹ReadsAll _ _ _›
    cases ‹ReadsNt _ _ _›
    exact ⟨_, .r2 _, by simpa using .rule ‹_›⟩
  | 3, _ =>
    cases hk
    cases ‹ReadsAll _ _ _›
    cases ‹ReadsAll _ _ _›
    cases ‹ReadsNt _ _ _›
    exact ⟨_, .r3 _, by simpa using .rule ‹_›⟩
  | 4, _ =>
    cases hk
    cases ‹ReadsAll _ _ _›
    cases ‹ReadsAll _ _ _›
    cases ‹ReadsNt _ _ _›
    exact ⟨_, .r4 _, by simpa using .rule ‹_›⟩
  | 5, _ =>
    cases hk
    cases ‹ReadsAll _ _ _›
    cases ‹ReadsAll _ _ _›
    cases ‹ReadsAll _ _ _›
    cases ‹ReadsAll _ _ _›
    exact ⟨_, .r5 _ _ _, by simpa using .entryRule (.entry _ _ _)⟩
  | 6, _ =>
    cases hk
    cases ‹ReadsAll _ _ _›
    cases ‹ReadsAll _ _ _›
    cases ‹ReadsNt _ _ _›
    exact ⟨_, .r6 _ _, by simpa using .tagOpt _ ‹_›⟩
  | 7, _ =>
    cases hk
    cases ‹ReadsAll _ _ _›
    cases ‹ReadsAll _ _ _›
    exact ⟨_, .r7, by simpa using .tagOpt _ .absent⟩
  | 8, _ =>
    cases hk
    cases ‹ReadsAll _ _ _›
    cases ‹ReadsAll _ _ _›
    cases ‹ReadsAll _ _ _›
    cases ‹ReadsAll _ _ _›
    cases ‹ReadsAll _ _ _›
    cases ‹ReadsAll _ _ _›
    cases ‹ReadsAll _ _ _›
    cases ‹ReadsNt _ _ _›
    cases ‹ReadsNt _ _ _›
    exact ⟨_, .r8 _ _ _ _ _ _ _ _, .prodRule (ruleText_prod _ _ _ _ ‹_› ‹_›)⟩
  | 9, _ =>
    cases hk
    cases ‹ReadsAll _ _ _›
    cases ‹ReadsAll _ _ _›
    cases ‹ReadsNt _ _ _›
    exact ⟨_, .r9 _ _, by simpa using .precOpt _ ‹_›⟩
  | 10, _ =>
    cases hk
    cases ‹ReadsAll _ _ _›
    cases ‹ReadsAll _ _ _›
    exact ⟨_, .r10, by simpa using .precOpt _ .absent⟩
  | 11, _ =>
    cases hk
    cases ‹ReadsAll _ _ _›
    cases ‹ReadsAll _ _ _›
    cases ‹ReadsAll _ _ _›
    cases ‹ReadsAll _ _ _›
    cases ‹ReadsAll _ _ _›
    cases ‹ReadsAll _ _ _›
    cases ‹ReadsAll _ _ _›
    cases ‹ReadsNt _ _ _›
    cases ‹ReadsNt _ _ _›
    exact ⟨_, .r11 _ _ _ _ _ _ _, by simpa using .tokenRule (.token _ _ _ _ _ ‹_› ‹_›)⟩
  | 12, _ =>
    cases hk
    cases ‹ReadsAll _ _ _›
    cases ‹ReadsAll _ _ _›
    cases ‹ReadsAll _ _ _›
    cases ‹ReadsAll _ _ _›
    exact ⟨_, .r12 _ _ _, by simpa using .prec _ (.present _ _ _)⟩
  | 13, _ =>
    cases hk
    cases ‹ReadsAll _ _ _›
    cases ‹ReadsAll _ _ _›
    cases ‹ReadsAll _ _ _›
    cases ‹ReadsAll _ _ _›
    exact ⟨_, .r13 _ _ _, by simpa using .tag _ (.present _ _ _)⟩
  | 14, _ =>
    cases hk
    cases ‹ReadsAll _ _ _›
    cases ‹ReadsAll _ _ _›
    exact ⟨_, .r14 _, by simpa using .str _ (.inr rfl)⟩
  | 15, _ =>
    cases hk
    cases ‹ReadsAll _ _ _›
    cases ‹ReadsAll _ _ _›
    exact ⟨_, .r15 _, by simpa using .str _ (.inl rfl)⟩
  | 16, _ =>
    cases hk
    cases ‹ReadsAll _ _ _›
    cases ‹ReadsAll _ _ _›
    cases ‹ReadsNt _ _ _›
    exact ⟨_, .r16 _ _, by simpa using .pattern _ (.alternative ‹_›)⟩
  | 17, _ =>
    cases hk
    cases ‹ReadsAll _ _ _›
    cases ‹ReadsAll _ _ _›
    exact ⟨_, .r17 _, by simpa using .pattern _ (.nothing _)⟩
  | 18, _ =>
    cases hk
    cases ‹ReadsAll _ _ _›
    cases ‹ReadsAll _ _ _›
    cases ‹ReadsAll _ _ _›
    cases ‹ReadsAll _ _ _›
    cases ‹ReadsNt _ _ _›
    cases ‹ReadsNt _ _ _›
    exact ⟨_, .r18 _ _ _ _ _, by simpa using .alternative _ (.choice _ ‹_› ‹_›)⟩
  | 19, _ =>
    cases hk
    cases ‹ReadsAll _ _ _›
    cases ‹ReadsAll _ _ _›
    cases ‹ReadsNt _ _ _›
    exact ⟨_, .r19 _ _, by simpa using .alternative _ (.concatenation ‹_›)⟩
  | 20, _ =>
    cases hk
    cases ‹ReadsAll _ _ _›
    cases ‹ReadsAll _ _ _›
    cases ‹ReadsAll _ _ _›
    cases ‹ReadsNt _ _ _›
    cases ‹ReadsNt _ _ _›
    exact ⟨_, .r20 _ _ _ _, by simpa using .concatenation _ (.sequence ‹_› ‹_›)⟩
  | 21, _ =>
    cases hk
    cases ‹ReadsAll _ _ _›
    cases ‹ReadsAll _ _ _›
    cases ‹ReadsNt _ _ _›
    exact ⟨_, .r21 _ _, by simpa using .concatenation _ (.unary ‹_›)⟩
  | 22, _ =>
    cases hk
    cases ‹ReadsAll _ _ _›
    cases ‹ReadsAll _ _ _›
    cases ‹ReadsNt _ _ _›
    exact ⟨_, .r22 _ _, by simpa using .unary _ ‹_›⟩
  | 23, _ =>
    cases hk
    cases ‹ReadsAll _ _ _›
    cases ‹ReadsAll _ _ _›
    cases ‹ReadsNt _ _ _›
    exact ⟨_, .r23 _ _, by simpa using .unary _ ‹_›⟩
  | 24, _ =>
    cases hk
    cases ‹ReadsAll _ _ _›
    cases ‹ReadsAll _ _ _›
    cases ‹ReadsNt _ _ _›
    exact ⟨_, .r24 _ _, by simpa using .unary _ ‹_›⟩
  | 25, _ =>
    cases hk
    cases ‹ReadsAll _ _ _›
    cases ‹ReadsAll _ _ _›
    cases ‹ReadsNt _ _ _›
    exact ⟨_, .r25 _ _, by simpa using .unary _ (.item ‹_›)⟩
  | 26, _ =>
    cases hk
    cases ‹ReadsAll _ _ _›
    cases ‹ReadsAll _ _ _›
    cases ‹ReadsAll _ _ _›
    cases ‹ReadsNt _ _ _›
    exact ⟨_, .r26 _ _ _, by simpa using .opt _ (.optional _ ‹_›)⟩
  | 27, _ =>
    cases hk
    cases ‹ReadsAll _ _ _›
    cases ‹ReadsAll _ _ _›
    cases ‹ReadsAll _ _ _›
    cases ‹ReadsNt _ _ _›
    exact ⟨_, .r27 _ _ _, by simpa using .star _ (.star _ ‹_›)⟩
  | 28, _ =>
    cases hk
    cases ‹ReadsAll _ _ _›
    cases ‹ReadsAll _ _ _›
    cases ‹ReadsAll _ _ _›
    cases ‹ReadsNt _ _ _›
    exact ⟨_, .r28 _ _ _, by simpa using .plus _ (.plus _ ‹_›)⟩
  | 29, _ =>
    cases hk
    cases ‹ReadsAll _ _ _›
    cases ‹ReadsAll _ _ _›
    exact ⟨_, .r29 _, by simpa using .item _ (.name _)⟩
  | 30, _ =>
    cases hk
    cases ‹ReadsAll _ _ _›
    cases ‹ReadsAll _ _ _›
    cases ‹ReadsAll _ _ _›
    cases ‹ReadsAll _ _ _›
    cases ‹ReadsNt _ _ _›
    exact ⟨_, .r30 _ _ _ _, by simpa using .item _ (.paren _ _ ‹_›)⟩
  | k + 31, hlt => omega

/-! ## trees -/

theorem lapexRules_nodup : lapexGrammar.rules.Nodup := by decide +kernel

/-- the callbacks for the trees push what the raw values stand for -/
def Runs (syn : List Char → Option Hir) (ts : List (PTree TokenData)) (raws : List RawAst) : Prop :=
  ∀ events, TraceIs lapexGrammar events (PTree.postorderList ts) → ∀ s, events.foldlM (lapexVisit syn) s = pushAll syn raws s

variable {syn : List Char → Option Hir}

theorem pushAll_append (syn : List Char → Option Hir) (a b : List RawAst) (s : AstStack) : pushAll syn (a ++ b) s = pushAll syn a s >>= pushAll syn b := by
  induction a generalizing s with
  | nil => rfl
  | cons r a ih =>
    simp only [List.cons_append, pushAll, bind_assoc]
    congr 1
    funext x
    exact ih _

theorem traceIs_append {events : List (LREvent TokenData)} {a b : List (PEvent TokenData)} (h : TraceIs lapexGrammar events (a ++ b)) :
    ∃ x y, events = x ++ y ∧ TraceIs lapexGrammar x a ∧ TraceIs lapexGrammar y b := by
  unfold TraceIs at h ⊢
  rw [List.map_append] at h
  obtain ⟨x, y, h1, h2, h3⟩ := List.map_eq_append_iff.mp h
  exact ⟨x, y, h1, h2, h3⟩

theorem Runs.nil : Runs syn [] [] := by
  intro events h s
  unfold TraceIs at h
  have : events = [] := by simpa [PTree.postorderList] using h
  subst this
  rfl

theorem Runs.append {ts ts' : List (PTree TokenData)} {a b : List RawAst} (h : Runs syn ts a) (h' : Runs syn ts' b) : Runs syn (ts ++ ts') (a ++ b) := by
  intro events he s
  have hp : ∀ l l' : List (PTree TokenData), PTree.postorderList (l ++ l') = PTree.postorderList l ++ PTree.postorderList l' := by
    intro l l'
    induction l with
    | nil => rfl
    | cons t l ih => simp [PTree.postorderList, ih]
  rw [hp] at he
  obtain ⟨x, y, rfl, h1, h2⟩ := traceIs_append he
  rw [List.foldlM_append, h x h1, pushAll_append]
  congr 1
  funext s'
  exact h' y h2 s'

theorem Runs.leaf (a : Nat) (d : TokenData) : Runs syn [.leaf a d] [.tok d] := by
  intro events h s
  unfold TraceIs at h
  simp only [PTree.postorderList, PTree.postorder, List.append_nil, List.map_cons, List.map_nil] at h
  obtain ⟨e, es, rfl, h1, h2⟩ := List.map_eq_cons_iff.mp h
  have : es = [] := by simpa using h2
  subst this
  cases e with
  | reduce i =>
    simp only [LREvent.meaning, Option.map_eq_some_iff] at h1
    obtain ⟨r, -, h1⟩ := h1
    cases h1
  | shift t d' =>
    cases t with
    | tok b =>
      simp only [LREvent.meaning, Option.some.injEq, PEvent.shift.injEq] at h1
      obtain ⟨rfl, rfl⟩ := h1
      rfl
    | _ => cases h1

theorem Runs.node {k : Nat} {r : Rule} (hk : lapexGrammar.rules[k]? = some r) {cs : List (PTree TokenData)} {raws : List RawAst} {raw : RawAst} (hc : Combine k raws raw)
    (h : Runs syn cs raws) : Runs syn [.node r cs] [raw] := by
  intro events he s
  simp only [PTree.postorderList, PTree.postorder, List.append_nil] at he
  obtain ⟨x, y, rfl, h1, h2⟩ := traceIs_append he
  unfold TraceIs at h2
  obtain ⟨e, es, rfl, h3, h4⟩ := List.map_eq_cons_iff.mp h2
  have : es = [] := by simpa using h4
  subst this
  cases e with
  | shift t d' => cases t <;> cases h3
  | reduce i =>
    simp only [LREvent.meaning, Option.map_eq_some_iff, PEvent.reduce.injEq] at h3
    obtain ⟨r', hi, rfl⟩ := h3
    have hik : i = k := by
      have h1 := getElem?_lt hi
      have h2 := getElem?_lt hk
      rw [List.getElem?_eq_getElem h1, Option.some.injEq] at hi
      rw [List.getElem?_eq_getElem h2, Option.some.injEq] at hk
      exact (List.Nodup.getElem_inj_iff lapexRules_nodup).mp (hi.trans hk.symm)
    subst hik
    rw [List.foldlM_append, h x h1, ← combine_visit syn hc]
    congr 1
    funext s'
    simp [List.foldlM]

theorem reads_of_forest {ss : List Sym} {ts : List (PTree TokenData)} (h : Forest lapexGrammar.rules ss ts) :
    ∃ raws, ReadsAll ss (PTree.tokensList ts) raws ∧ ∀ syn, Runs syn ts raws := by
  induction h with
  | nil => exact ⟨[], .nil, fun _ => Runs.nil⟩
  | eps _ ih =>
    obtain ⟨raws, h1, h2⟩ := ih
    exact ⟨raws, .eps h1, h2⟩
  | @term a d ss ts _ ih =>
    obtain ⟨raws, h1, h2⟩ := ih
    exact ⟨.tok d :: raws, .term h1, fun syn => Runs.append (Runs.leaf a d) (h2 syn)⟩
  | @nonterm r cs ss ts hr _ _ ih1 ih2 =>
    obtain ⟨raws, h1, h2⟩ := ih1
    obtain ⟨raws', h3, h4⟩ := ih2
    obtain ⟨k, hk⟩ := List.mem_iff_getElem?.mp hr
    obtain ⟨raw, hc, hn⟩ := reads_node hk h1
    exact ⟨raw :: raws', .nonterm hn h3, fun syn => Runs.append (Runs.node hk hc (h2 syn)) (h4 syn)⟩

/-- a tree of a symbol for these tokens and this value -/
def HasTree (X : Sym) (w : Tokens) (raw : RawAst) : Prop :=
  ∃ t : PTree TokenData, Forest lapexGrammar.rules [X] [t] ∧ t.tokens = w ∧ ∀ syn, Runs syn [t] [raw]

/-- trees of several symbols -/
def HasTrees (ss : List Sym) (w : Tokens) (raws : List RawAst) : Prop :=
  ∃ ts : List (PTree TokenData), Forest lapexGrammar.rules ss ts ∧ PTree.tokensList ts = w ∧ ∀ syn, Runs syn ts raws

theorem HasTrees.nil : HasTrees [] [] [] := ⟨[], .nil, rfl, fun _ => Runs.nil⟩

theorem HasTrees.eps {ss : List Sym} {w : Tokens} {raws : List RawAst} : HasTrees ss w raws → HasTrees (.eps :: ss) w raws := by
  rintro ⟨ts, h1, h2, h3⟩
  exact ⟨ts, .eps h1, h2, h3⟩

theorem HasTrees.tok {ss : List Sym} {w : Tokens} {raws : List RawAst} (a : Nat) (d : TokenData) :
    HasTrees ss w raws → HasTrees (.t a :: ss) ((a, d) :: w) (.tok d :: raws) := by
  rintro ⟨ts, h1, rfl, h3⟩
  exact ⟨.leaf a d :: ts, .term h1, rfl, fun syn => Runs.append (Runs.leaf a d) (h3 syn)⟩

theorem HasTrees.cons {A : Nat} {ss : List Sym} {u w : Tokens} {raw : RawAst} {raws : List RawAst} :
    HasTree (.nt A) u raw → HasTrees ss w raws → HasTrees (.nt A :: ss) (u ++ w) (raw :: raws) := by
  rintro ⟨t, g1, rfl, g3⟩ ⟨ts, h1, rfl, h3⟩
  cases g1 with
  | nonterm hr hc hn =>
    cases hn
    exact ⟨_ :: ts, .nonterm hr hc h1, rfl, fun syn => Runs.append (g3 syn) (h3 syn)⟩

theorem HasTrees.node {k : Nat} {r : Rule} (hk : lapexGrammar.rules[k]? = some r) {w : Tokens} {raws : List RawAst} {raw : RawAst} (hc : Combine k raws raw) :
    HasTrees r.rhs w raws → HasTree (.nt r.lhs) w raw := by
  rintro ⟨ts, h1, rfl, h3⟩
  exact ⟨.node r ts, .nonterm (List.mem_of_getElem? hk) h1 .nil, rfl, fun syn => Runs.node hk hc (h3 syn)⟩

/-- the non-terminal of a level -/
def Level.nt : Level → Nat
  | .item => 25
  | .unary => 18
  | .concatenation => 16
  | .alternative => 14
  | .pattern => 12

theorem unit {A B : Nat} {w : Tokens} {raw raw' : RawAst} (k : Nat) {o : Nat} (hk : lapexGrammar.rules[k]? = some ⟨A, [.nt B], o⟩) (hc : Combine k [raw] raw') (h : HasTree (.nt B) w raw) :
    HasTree (.nt A) w raw' := by
  have := HasTrees.node hk hc (HasTrees.cons h .nil)
  rwa [List.append_nil] at this

theorem body_tree {l : Level} {w : Tokens} {p : ProdPattern} (h : Body joinSeq joinAlt l w p) : ∃ sp, HasTree (.nt l.nt) w (.pat sp p) := by
  induction h with
  | name n => exact ⟨_, HasTrees.node (k := 29) rfl (.r29 n) (.tok _ _ .nil)⟩
  | paren l r _ ih =>
    obtain ⟨sp, ih⟩ := ih
    exact ⟨_, HasTrees.node (k := 30) rfl (.r30 l _ _ r) (.tok _ _ (.cons ih (.tok _ _ .nil)))⟩
  | optional o _ ih =>
    obtain ⟨sp, ih⟩ := ih
    exact ⟨_, unit 22 rfl (.r22 _ _) (HasTrees.node (k := 26) rfl (.r26 _ _ o) (.cons ih (.tok _ _ .nil)))⟩
  | star o _ ih =>
    obtain ⟨sp, ih⟩ := ih
    exact ⟨_, unit 24 rfl (.r24 _ _) (HasTrees.node (k := 27) rfl (.r27 _ _ o) (.cons ih (.tok _ _ .nil)))⟩
  | plus o _ ih =>
    obtain ⟨sp, ih⟩ := ih
    exact ⟨_, unit 23 rfl (.r23 _ _) (HasTrees.node (k := 28) rfl (.r28 _ _ o) (.cons ih (.tok _ _ .nil)))⟩
  | item _ ih =>
    obtain ⟨sp, ih⟩ := ih
    exact ⟨_, unit 25 rfl (.r25 _ _) ih⟩
  | sequence _ _ ih1 ih2 =>
    obtain ⟨sp, ih1⟩ := ih1
    obtain ⟨sq, ih2⟩ := ih2
    have := HasTrees.node (k := 20) rfl (.r20 _ _ _ _) (.cons ih1 (.cons ih2 .nil))
    rw [List.append_nil] at this
    exact ⟨_, this⟩
  | unary _ ih =>
    obtain ⟨sp, ih⟩ := ih
    exact ⟨_, unit 21 rfl (.r21 _ _) ih⟩
  | choice b _ _ ih1 ih2 =>
    obtain ⟨sp, ih1⟩ := ih1
    obtain ⟨sq, ih2⟩ := ih2
    have := HasTrees.node (k := 18) rfl (.r18 _ _ b _ _) (.cons ih1 (.tok _ _ (.cons ih2 .nil)))
    rw [List.append_nil] at this
    exact ⟨_, this⟩
  | concatenation _ ih =>
    obtain ⟨sp, ih⟩ := ih
    exact ⟨_, unit 19 rfl (.r19 _ _) ih⟩
  | alternative _ ih =>
    obtain ⟨sp, ih⟩ := ih
    exact ⟨_, unit 16 rfl (.r16 _ _) ih⟩
  | nothing n => exact ⟨_, HasTrees.node (k := 17) rfl (.r17 n) (.tok _ _ .nil)⟩

theorem tag_tree {w : Tokens} {t : Option TokenData} (h : Bracketed Lx.ident w t) : ∃ sp, HasTree (.nt 26) w (.tag sp t) := by
  cases h with
  | absent => exact ⟨_, HasTrees.node (k := 7) rfl .r7 (.eps .nil)⟩
  | present l d r => exact ⟨_, unit 6 rfl (.r6 _ _) (HasTrees.node (k := 13) rfl (.r13 l d r) (.tok _ _ (.tok _ _ (.tok _ _ .nil))))⟩

theorem prec_tree {w : Tokens} {t : Option TokenData} (h : Bracketed Lx.digit w t) : ∃ sp, HasTree (.nt 27) w (.prec sp t) := by
  cases h with
  | absent => exact ⟨_, HasTrees.node (k := 10) rfl .r10 (.eps .nil)⟩
  | present l d r => exact ⟨_, unit 9 rfl (.r9 _ _) (HasTrees.node (k := 12) rfl (.r12 l d r) (.tok _ _ (.tok _ _ (.tok _ _ .nil))))⟩

theorem rule_tree {w : Tokens} {r : Spanned RawRule} (h : RuleText joinSeq joinAlt w r) : HasTree (.nt 2) w (.rule r) := by
  cases h with
  | entry k n s => exact unit 2 rfl (.r2 _) (HasTrees.node (k := 5) rfl (.r5 k n s) (.tok _ _ (.tok _ _ (.tok _ _ .nil))))
  | prod k n e s h1 h2 =>
    obtain ⟨sp, h1⟩ := tag_tree h1
    obtain ⟨sq, h2⟩ := body_tree h2
    have := HasTrees.node (k := 8) rfl (.r8 k n sp _ e sq _ s) (.tok _ _ (.tok _ _ (.cons h1 (.tok _ _ (.cons h2 (.tok _ _ .nil))))))
    refine unit 3 rfl (.r3 _) ?_
    simp only [List.append_assoc, List.cons_append, List.nil_append] at this ⊢
    exact this
  | @token _ _ kind k n e d s h1 h2 =>
    obtain ⟨sp, h1⟩ := prec_tree h1
    have h3 : HasTree (.nt 10) [(kind, d)] (.tok d) := by
      rcases h2 with rfl | rfl
      · exact HasTrees.node (k := 15) rfl (.r15 d) (.tok _ _ .nil)
      · exact HasTrees.node (k := 14) rfl (.r14 d) (.tok _ _ .nil)
    have := HasTrees.node (k := 11) rfl (.r11 k n sp _ e d s) (.tok _ _ (.tok _ _ (.cons h1 (.tok _ _ (.cons h3 (.tok _ _ .nil))))))
    refine unit 4 rfl (.r4 _) ?_
    simp only [List.append_assoc, List.cons_append, List.nil_append] at this ⊢
    exact this

theorem file_tree {w : Tokens} {rs : List (Spanned RawRule)} (h : FileText joinSeq joinAlt w rs) : HasTree (.nt 0) w (.rules rs) := by
  induction h with
  | one h => exact unit 0 rfl (.r0 _) (rule_tree h)
  | more h _ ih =>
    have := HasTrees.node (k := 1) rfl (.r1 _ _) (.cons (rule_tree h) (.cons ih .nil))
    rwa [List.append_nil] at this

/-! ## the answer -/

theorem takeBytes_some {l : List Char} {n : Nat} {m : List Char} (h : takeBytes l n = some m) : ∃ v, l = m ++ v ∧ bytes m = n := by
  induction l generalizing n m with
  | nil =>
    cases n with
    | zero => simp only [takeBytes, Option.some.injEq] at h; subst h; exact ⟨[], rfl, rfl⟩
    | succ n => cases h
  | cons c l ih =>
    cases n with
    | zero => simp only [takeBytes, Option.some.injEq] at h; subst h; exact ⟨c :: l, rfl, rfl⟩
    | succ n =>
      simp only [takeBytes] at h
      split at h
      · rename_i hc
        obtain ⟨m', hm, rfl⟩ := Option.map_eq_some_iff.mp h
        obtain ⟨v, rfl, hb⟩ := ih hm
        refine ⟨v, rfl, ?_⟩
        simp only [bytes, List.map_cons, List.sum_cons] at hb ⊢
        omega
      · cases h

theorem byteSlice_inner (rest inner : List Char) :
    byteSlice ('/' :: rest) 1 ((('/' :: rest).map Char.utf8Size).sum - 1) = .ok inner ↔ ∃ c, rest = inner ++ [c] ∧ c.utf8Size = 1 := by
  have hs : '/'.utf8Size = 1 := rfl
  have hd : dropBytes ('/' :: rest) 1 = some rest := by simp [dropBytes, hs]
  have hsum : (('/' :: rest).map Char.utf8Size).sum - 1 = bytes rest := by simp [bytes, hs]
  rw [hsum]
  unfold byteSlice
  rw [hd]
  simp only [Option.bind_some]
  constructor
  · intro h
    split at h
    · rename_i h1
      split at h
      · rename_i r hr
        cases h
        obtain ⟨v, rfl, hb⟩ := takeBytes_some hr
        have hv : bytes v = 1 := by
          have : bytes (inner ++ v) = bytes inner + bytes v := by simp [bytes]
          omega
        cases v with
        | nil => cases hv
        | cons c v =>
          have hc : 1 ≤ c.utf8Size := Char.utf8Size_pos c
          simp only [bytes, List.map_cons, List.sum_cons] at hv
          cases v with
          | nil => exact ⟨c, rfl, by simpa using hv⟩
          | cons d v =>
            have hd : 1 ≤ d.utf8Size := Char.utf8Size_pos d
            simp only [List.map_cons, List.sum_cons] at hv
            omega
      · cases h
    · cases h
  · rintro ⟨c, rfl, hc⟩
    have hb : bytes (inner ++ [c]) = bytes inner + 1 := by simp [bytes, hc]
    rw [hb, if_pos (by omega), Nat.add_sub_cancel, takeBytes_bytes]

theorem parseU16_iff (text : List Char) (n : Nat) : parseU16 text = some n ↔ NumberText text n := by
  have key : ∀ digits : List Char, (if digits ≠ [] ∧ digits.all Char.isDigit = true then
      (if digits.foldl (fun n c => 10 * n + (c.toNat - 48)) 0 < u16Count then some (digits.foldl (fun n c => 10 * n + (c.toNat - 48)) 0) else none) else none) = some n ↔
      digits ≠ [] ∧ (∀ c ∈ digits, c.isDigit = true) ∧ decimalValue digits = n ∧ n < 65536 := by
    intro digits
    constructor
    · intro h
      split at h
      · rename_i h1
        split at h
        · rename_i h2
          simp only [Option.some.injEq] at h
          exact ⟨h1.1, List.all_eq_true.mp h1.2, h, by rw [← h]; exact h2⟩
        · cases h
      · cases h
    · rintro ⟨h1, h2, rfl, h3⟩
      rw [if_pos ⟨h1, List.all_eq_true.mpr h2⟩]
      exact if_pos h3
  have hplus : ('+').isDigit = false := rfl
  unfold parseU16
  constructor
  · intro h
    cases text with
    | nil =>
      obtain ⟨h1, -⟩ := (key []).mp h
      exact absurd rfl h1
    | cons c rest =>
      by_cases hc : c = '+'
      · subst hc
        exact ⟨rest, .inr rfl, (key rest).mp h⟩
      · refine ⟨c :: rest, .inl rfl, (key (c :: rest)).mp ?_⟩
        split at h
        · rename_i hx
          injection hx with hx _
          exact absurd hx hc
        · exact h
  · rintro ⟨digits, rfl | rfl, hd⟩
    · cases text with
      | nil => exact absurd rfl hd.1
      | cons c rest =>
        have hc : c ≠ '+' := by
          rintro rfl
          have := hd.2.1 '+' (by simp)
          rw [hplus] at this
          cases this
        split
        · rename_i hx
          injection hx with hx _
          exact absurd hx hc
        · exact (key (c :: rest)).mpr hd
    · exact (key digits).mpr hd

theorem buildPrec_iff (t : Option TokenData) (k : Option Nat) : buildPrec t = .ok k ↔ PrecedenceIs t k := by
  cases t with
  | none =>
    constructor
    · intro h; cases h; exact .none
    · intro h; cases h; rfl
  | some d =>
    unfold buildPrec
    constructor
    · intro h
      cases hn : parseU16 d.text with
      | none => simp only [hn] at h; cases h
      | some n => simp only [hn] at h; cases h; exact .some ((parseU16_iff _ _).mp hn)
    · intro h
      cases h with
      | some h => simp only [(parseU16_iff _ _).mpr h]

theorem tokenPattern_iff (syn : List Char → Option Hir) (text : List Char) (p : TokenPattern) : tokenPatternOf syn text = .ok p ↔
    (∃ body, text = '"' :: body ∧ p = .literal body.dropLast) ∨
    (∃ body c h q, text = '/' :: body ++ [c] ∧ c.utf8Size = 1 ∧ syn body = some h ∧ makePattern h = .ok q ∧ p = .pattern q) := by
  unfold tokenPatternOf
  constructor
  · intro h
    split at h
    · rename_i rest
      cases h
      exact .inl ⟨rest, rfl, rfl⟩
    · rename_i rest
      obtain ⟨q, hq, h2⟩ := res_bind_ok.mp h
      cases h2
      unfold getRegexPattern at hq
      obtain ⟨inner, h3, h4⟩ := res_bind_ok.mp hq
      obtain ⟨c, rfl, hc⟩ := (byteSlice_inner rest inner).mp h3
      cases hs : syn inner with
      | none => simp only [hs] at h4; cases h4
      | some hir =>
        simp only [hs] at h4
        cases hm : makePattern hir with
        | error e => simp only [hm] at h4; cases h4
        | ok q' =>
          simp only [hm] at h4
          cases h4
          exact .inr ⟨inner, c, hir, q, rfl, hc, hs, hm, rfl⟩
    · cases h
  · rintro (⟨body, rfl, rfl⟩ | ⟨body, c, hir, q, rfl, hc, hs, hm, rfl⟩)
    · rfl
    · have : getRegexPattern syn ('/' :: (body ++ [c])) = .ok q := by
        unfold getRegexPattern
        rw [(byteSlice_inner (body ++ [c]) body).mpr ⟨c, rfl, hc⟩]
        simp only [res_ok_bind, hs, hm]
      simp only [List.cons_append, this, res_ok_bind]

theorem buildRule_iff (syn : List Char → Option Hir) (r : Spanned RawRule) (x : Spanned LapexRule) :
    buildRule syn r = .ok x ↔ x.span = r.span ∧ Means syn r.inner x.inner := by
  obtain ⟨sp, r⟩ := r
  obtain ⟨sp', x⟩ := x
  unfold buildRule
  cases r with
  | entry n =>
    constructor
    · intro h; cases h; exact ⟨rfl, .entry n⟩
    · rintro ⟨h1, h2⟩
      simp only at h1 h2
      subst h1
      cases h2
      rfl
  | prod n tag p =>
    constructor
    · intro h; cases h; exact ⟨rfl, .prod n tag p⟩
    · rintro ⟨h1, h2⟩
      simp only at h1 h2
      subst h1
      cases h2
      rfl
  | token n prec d =>
    constructor
    · intro h
      obtain ⟨k, h1, h⟩ := res_bind_ok.mp h
      obtain ⟨p, h2, h⟩ := res_bind_ok.mp h
      cases h
      refine ⟨rfl, ?_⟩
      rcases (tokenPattern_iff syn d.text p).mp h2 with ⟨body, e1, rfl⟩ | ⟨body, c, hir, q, e1, e2, e3, e4, rfl⟩
      · exact .literal ((buildPrec_iff _ _).mp h1) e1
      · exact .regex ((buildPrec_iff _ _).mp h1) e1 e2 e3 e4
    · rintro ⟨h1, h2⟩
      simp only at h1 h2
      subst h1
      cases h2 with
      | literal h1 h2 =>
        simp only [(buildPrec_iff _ _).mpr h1, res_ok_bind, (tokenPattern_iff syn d.text _).mpr (.inl ⟨_, h2, rfl⟩)]
      | regex h1 h2 h3 h4 h5 =>
        simp only [(buildPrec_iff _ _).mpr h1, res_ok_bind, (tokenPattern_iff syn d.text _).mpr (.inr ⟨_, _, _, _, h2, h3, h4, h5, rfl⟩)]

theorem buildRules_iff (syn : List Char → Option Hir) (rs : List (Spanned RawRule)) (xs : List (Spanned LapexRule)) : buildRules syn rs = .ok xs ↔ MeansAll syn rs xs := by
  unfold MeansAll
  induction rs generalizing xs with
  | nil =>
    constructor
    · intro h; cases h; exact .nil
    · intro h; cases h; rfl
  | cons r rs ih =>
    unfold buildRules
    constructor
    · intro h
      obtain ⟨x, h1, h⟩ := res_bind_ok.mp h
      obtain ⟨ys, h2, h⟩ := res_bind_ok.mp h
      cases h
      exact .cons ((buildRule_iff syn r x).mp h1) ((ih ys).mp h2)
    · intro h
      cases h with
      | cons h1 h2 => simp only [(buildRule_iff syn r _).mpr h1, (ih _).mpr h2, res_ok_bind]

theorem sortRules_eq (xs : List (Spanned LapexRule)) : sortRules xs = (tokenRulesOf xs, prodRulesOf xs, entryRulesOf xs) := by
  induction xs with
  | nil => rfl
  | cons x xs ih =>
    obtain ⟨sp, x⟩ := x
    cases x <;> simp [sortRules, ih, tokenRulesOf, prodRulesOf, entryRulesOf]

theorem filterMap_rev {α β : Type} (f : α → Option β) (l : List α) : l.reverse.filterMap f = (l.filterMap f).reverse := by
  rw [List.filterMap_reverse]

theorem finish_iff (syn : List Char → Option Hir) (rs : List (Spanned RawRule)) (out : SpannedRules) :
    (pushAll syn [.rules rs] [] >>= lapexFinish) = .ok out ↔
      ∃ xs, MeansAll syn rs xs ∧ entryRulesOf xs = [out.entry] ∧ out.tokens = (tokenRulesOf xs).reverse ∧ out.prods = (prodRulesOf xs).reverse := by
  have hfin : ∀ xs, lapexFinish [Spanned.zero (.rules xs)] = .ok out ↔ entryRulesOf xs = [out.entry] ∧ out.tokens = tokenRulesOf xs ∧ out.prods = prodRulesOf xs := by
    intro xs
    unfold lapexFinish
    simp only [Spanned.zero, sortRules_eq]
    constructor
    · intro h
      split at h
      · rename_i heq
        simp only [Prod.mk.injEq] at heq
        obtain ⟨rfl, rfl, h3⟩ := heq
        cases h
        exact ⟨h3, rfl, rfl⟩
      · cases h
    · rintro ⟨h1, h2, h3⟩
      rw [h1, ← h2, ← h3]
  have hrev : ∀ xs : List (Spanned LapexRule), entryRulesOf xs.reverse = [out.entry] ↔ entryRulesOf xs = [out.entry] := by
    intro xs
    unfold entryRulesOf
    rw [filterMap_rev]
    constructor
    · intro h
      have := congrArg List.reverse h
      simpa using this
    · intro h; rw [h]; rfl
  simp only [pushAll, RawAst.build, bind_assoc, res_ok_bind]
  constructor
  · intro h
    obtain ⟨xs, h1, h⟩ := res_bind_ok.mp h
    obtain ⟨h2, h3, h4⟩ := (hfin xs.reverse).mp h
    refine ⟨xs, (buildRules_iff syn rs xs).mp h1, (hrev xs).mp h2, ?_, ?_⟩
    · rw [h3]; exact filterMap_rev _ _
    · rw [h4]; exact filterMap_rev _ _
  · rintro ⟨xs, h1, h2, h3, h4⟩
    rw [(buildRules_iff syn rs xs).mpr h1]
    refine (hfin xs.reverse).mpr ⟨(hrev xs).mpr h2, ?_, ?_⟩
    · rw [h3]; exact (filterMap_rev _ _).symm
    · rw [h4]; exact (filterMap_rev _ _).symm

/-! ## the visitor never runs for ever -/

theorem nf_bind {α β : Type} {x : Res α} {f : α → Res β} (h : x ≠ .error .fuel) (h2 : ∀ a, f a ≠ .error .fuel) : (x >>= f) ≠ .error .fuel := by
  cases x with
  | ok a => exact h2 a
  | error e => exact fun h' => h (by cases h'; rfl)

theorem nf_ok {α : Type} {a : α} : (Except.ok a : Res α) ≠ .error .fuel := fun h => by cases h
theorem nf_panic {α : Type} : (Except.error .panic : Res α) ≠ .error .fuel := fun h => by cases h

theorem nf_popAny (s : AstStack) : popAny s ≠ .error .fuel := by cases s <;> (intro h; cases h)
theorem nf_popToken (s : AstStack) : popToken s ≠ .error .fuel := by unfold popToken; split <;> (intro h; cases h)
theorem nf_popPattern (s : AstStack) : popPattern s ≠ .error .fuel := by unfold popPattern; split <;> (intro h; cases h)
theorem nf_popTag (s : AstStack) : popTag s ≠ .error .fuel := by unfold popTag; split <;> (intro h; cases h)
theorem nf_popPrecedence (s : AstStack) : popPrecedence s ≠ .error .fuel := by unfold popPrecedence; split <;> (intro h; cases h)
theorem nf_popRule (s : AstStack) : popRule s ≠ .error .fuel := by unfold popRule; split <;> (intro h; cases h)
theorem nf_popRules (s : AstStack) : popRules s ≠ .error .fuel := by unfold popRules; split <;> (intro h; cases h)

theorem nf_byteSlice (s : List Char) (a b : Nat) : byteSlice s a b ≠ .error .fuel := by
  unfold byteSlice
  split
  · split <;> (intro h; cases h)
  · exact nf_panic

theorem nf_tokenPatternOf (syn : List Char → Option Hir) (rhs : List Char) : tokenPatternOf syn rhs ≠ .error .fuel := by
  unfold tokenPatternOf
  split
  · exact nf_ok
  · refine nf_bind ?_ fun _ => nf_ok
    unfold getRegexPattern
    refine nf_bind (nf_byteSlice _ _ _) fun _ => ?_
    split
    · exact nf_panic
    · split <;> (intro h; cases h)
  · exact nf_panic

theorem nf_visitor (syn : List Char → Option Hir) : ∀ e ∈ lapexVisitor syn, ∀ s, e.2 s ≠ .error .fuel := by
  simp only [lapexVisitor, List.forall_mem_cons]
  have hrep : ∀ wrap s, reduceRepetition wrap s ≠ .error .fuel := fun wrap s => nf_bind (nf_popAny _) fun _ => nf_bind (nf_popPattern _) fun _ => nf_ok
  refine ⟨fun _ => nf_ok, fun _ => nf_ok, fun _ => nf_ok, fun _ => nf_ok, fun s => ?_, hrep _, fun s => ?_, fun s => ?_, fun s => ?_, fun _ => nf_ok, fun _ => nf_ok, fun s => ?_, fun s => ?_,
    hrep _, fun s => ?_, hrep _, fun s => ?_, fun _ => nf_ok, fun _ => nf_ok, fun _ => nf_ok, fun _ => nf_ok, fun s => ?_, fun s => ?_, fun _ => nf_ok, fun _ => nf_ok, fun s => ?_,
    fun _ => nf_ok, fun _ => nf_ok, fun s => ?_, fun _ => nf_ok, fun _ => nf_ok, fun _ h => by cases h⟩
  · exact nf_bind (nf_popAny _) fun _ => nf_bind (nf_popPattern _) fun _ => nf_bind (nf_popTag _) fun _ => nf_bind (nf_popToken _) fun _ => nf_bind (nf_popAny _) fun _ => nf_ok
  · exact nf_bind (nf_popToken _) fun _ => nf_ok
  · exact nf_bind (nf_popAny _) fun _ => nf_bind (nf_popPattern _) fun _ => nf_bind (nf_popAny _) fun _ => nf_ok
  · exact nf_bind (nf_popPattern _) fun _ => nf_bind (nf_popPattern _) fun _ => nf_ok
  · exact nf_bind (nf_popAny _) fun _ => nf_ok
  · exact nf_bind (nf_popAny _) fun _ => nf_bind (nf_popToken _) fun _ => nf_bind (nf_popPrecedence _) fun _ => nf_bind (nf_popToken _) fun _ => nf_bind (nf_popAny _) fun _ =>
      nf_bind (nf_tokenPatternOf _ _) fun _ => nf_ok
  · exact nf_bind (nf_popAny _) fun _ => nf_bind (nf_popToken _) fun _ => nf_bind (nf_popAny _) fun _ => nf_ok
  · exact nf_bind (nf_popPattern _) fun _ => nf_bind (nf_popPattern _) fun _ => nf_ok
  · exact nf_bind (nf_popRule _) fun _ => nf_ok
  · exact nf_bind (nf_popRules _) fun _ => nf_bind (nf_popRule _) fun _ => nf_ok
  · refine nf_bind (nf_popAny _) fun _ => nf_bind (nf_popToken _) fun x => ?_
    obtain ⟨a, b, c⟩ := x
    dsimp only
    split
    · exact nf_panic
    · exact nf_bind (nf_popAny _) fun _ => nf_ok
  · exact nf_bind (nf_popAny _) fun _ => nf_bind (nf_popToken _) fun _ => nf_bind (nf_popAny _) fun _ => nf_ok

theorem mem_of_lookup {α β : Type} [BEq α] [LawfulBEq α] {k : α} {v : β} : ∀ {l : List (α × β)}, l.lookup k = some v → (k, v) ∈ l := by
  intro l
  induction l with
  | nil => intro h; cases h
  | cons e l ih =>
    obtain ⟨a, b⟩ := e
    intro h
    rw [List.lookup_cons] at h
    split at h
    · rename_i hk
      cases h
      rw [beq_iff_eq.mp hk]
      exact List.mem_cons_self
    · exact List.mem_cons_of_mem _ (ih h)

theorem nf_lapexVisit (syn : List Char → Option Hir) (s : AstStack) (ev : LREvent TokenData) : lapexVisit syn s ev ≠ .error .fuel := by
  unfold lapexVisit
  split
  · exact nf_ok
  · split
    · exact nf_panic
    · split
      · exact nf_panic
      · rename_i h
        exact nf_visitor syn _ (mem_of_lookup h) s

theorem nf_foldlM {α β : Type} {f : β → α → Res β} (h : ∀ b a, f b a ≠ .error .fuel) : ∀ (l : List α) (b : β), l.foldlM f b ≠ .error .fuel := by
  intro l
  induction l with
  | nil => intro b; exact nf_ok
  | cons a l ih =>
    intro b
    rw [List.foldlM_cons]
    exact nf_bind (h b a) ih

theorem parseTokens_noFuel (syn : List Char → Option Hir) {m : LRMachine} {input : Nat → Tok × TokenData} {fuel : Nat} (h : ∀ events pos, lrParse m input fuel ≠ .running events pos) :
    parseTokens syn m input fuel ≠ .error .fuel := by
  unfold parseTokens
  split
  · rename_i e p he; exact absurd he (h e p)
  · refine nf_bind (nf_foldlM (nf_lapexVisit syn) _ _) fun s => ?_
    unfold lapexFinish
    split
    · split <;> (intro h; cases h)
    · exact nf_panic
  · exact nf_panic

end Verif
