import Verif.Proofs.GrammarNames

/-! # What `transform_pattern` adds to the grammar -/

set_option autoImplicit false

namespace Verif

/-- the symbol a name stands for -/
def symOf (syms : List (String × Sym × RuleRef)) (n : String) : Option Sym := (symLookup n syms).map (·.1)

/-- the pattern a helper non-terminal stands for, from the list of patterns in order of creation -/
def tpOf (base : Nat) (pats : List ProdPattern) (A : Nat) : Option ProdPattern := if A < base then none else pats[A - base]?

/-- symbol strings that stand for a pattern -/
inductive Trans (so : String → Option Sym) (tp : Nat → Option ProdPattern) : ProdPattern → List Sym → Prop
  | rule {n : String} {s : Sym} : so n = some s → Trans so tp (.rule n) [s]
  | epsilon : Trans so tp .epsilon [.eps]
  | seqNil : Trans so tp (.sequence []) []
  | seqCons {p : ProdPattern} {ps : List ProdPattern} {u v : List Sym} :
      Trans so tp p u → Trans so tp (.sequence ps) v → Trans so tp (.sequence (p :: ps)) (u ++ v)
  | alt {ps : List ProdPattern} {A : Nat} : tp A = some (.alternative ps) → Trans so tp (.alternative ps) [.nt A]
  | plus {p : ProdPattern} {A : Nat} : tp A = some (.oneOrMany p) → Trans so tp (.oneOrMany p) [.nt A]
  | star {p : ProdPattern} {A : Nat} : tp A = some (.zeroOrMany p) → Trans so tp (.zeroOrMany p) [.nt A]
  | opt {p : ProdPattern} {A : Nat} : tp A = some (.optional p) → Trans so tp (.optional p) [.nt A]

/-- right sides of the rules of the helper non-terminal `A` of a pattern -/
inductive RhsOf (so : String → Option Sym) (tp : Nat → Option ProdPattern) (A : Nat) : ProdPattern → List Sym → Prop
  | alt {ps : List ProdPattern} {p : ProdPattern} {ss : List Sym} : p ∈ ps → Trans so tp p ss → RhsOf so tp A (.alternative ps) ss
  | plusOne {p : ProdPattern} {ss : List Sym} : Trans so tp p ss → RhsOf so tp A (.oneOrMany p) ss
  | plusMore {p : ProdPattern} {ss : List Sym} : Trans so tp p ss → RhsOf so tp A (.oneOrMany p) (ss ++ [.nt A])
  | starNil {p : ProdPattern} : RhsOf so tp A (.zeroOrMany p) [.eps]
  | starMore {p : ProdPattern} {ss : List Sym} : Trans so tp p ss → RhsOf so tp A (.zeroOrMany p) (ss ++ [.nt A])
  | optSome {p : ProdPattern} {ss : List Sym} : Trans so tp p ss → RhsOf so tp A (.optional p) ss
  | optNone {p : ProdPattern} : RhsOf so tp A (.optional p) [.eps]

def HasRule (rules : List Rule) (A : Nat) (ss : List Sym) : Prop := ∃ r ∈ rules, r.lhs = A ∧ r.rhs = ss

/-- all the rules the helper non-terminal `A` of a pattern needs are there -/
def Complete (so : String → Option Sym) (tp : Nat → Option ProdPattern) (rules : List Rule) (A : Nat) : ProdPattern → Prop
  | .alternative ps => ∀ p ∈ ps, ∃ ss, Trans so tp p ss ∧ HasRule rules A ss
  | .oneOrMany p => ∃ ss, Trans so tp p ss ∧ HasRule rules A ss ∧ HasRule rules A (ss ++ [.nt A])
  | .zeroOrMany p => ∃ ss, Trans so tp p ss ∧ HasRule rules A [.eps] ∧ HasRule rules A (ss ++ [.nt A])
  | .optional p => ∃ ss, Trans so tp p ss ∧ HasRule rules A ss ∧ HasRule rules A [.eps]
  | _ => False

def Le (tp tp' : Nat → Option ProdPattern) : Prop := ∀ A p, tp A = some p → tp' A = some p

theorem tpOf_append (base : Nat) (pats ext : List ProdPattern) : Le (tpOf base pats) (tpOf base (pats ++ ext)) := by
  intro A p h
  unfold tpOf at *
  split at h
  · simp at h
  · rename_i hA
    rw [if_neg hA, List.getElem?_append_left (by
      rcases Nat.lt_or_ge (A - base) pats.length with h2 | h2
      · exact h2
      · rw [List.getElem?_eq_none h2] at h; simp at h)]
    exact h

section Mono
variable {so : String → Option Sym} {tp tp' : Nat → Option ProdPattern} (hle : Le tp tp')
include hle

theorem Trans.mono {p : ProdPattern} {ss : List Sym} (h : Trans so tp p ss) : Trans so tp' p ss := by
  induction h with
  | rule h => exact .rule h
  | epsilon => exact .epsilon
  | seqNil => exact .seqNil
  | seqCons _ _ i1 i2 => exact .seqCons i1 i2
  | alt h => exact .alt (hle _ _ h)
  | plus h => exact .plus (hle _ _ h)
  | star h => exact .star (hle _ _ h)
  | opt h => exact .opt (hle _ _ h)

theorem RhsOf.mono {A : Nat} {p : ProdPattern} {ss : List Sym} (h : RhsOf so tp A p ss) : RhsOf so tp' A p ss := by
  cases h with
  | alt h1 h2 => exact .alt h1 (h2.mono hle)
  | plusOne h => exact .plusOne (h.mono hle)
  | plusMore h => exact .plusMore (h.mono hle)
  | starNil => exact .starNil
  | starMore h => exact .starMore (h.mono hle)
  | optSome h => exact .optSome (h.mono hle)
  | optNone => exact .optNone

theorem Complete.mono {rules rules' : List Rule} (hr : rules ⊆ rules') {A : Nat} {p : ProdPattern} (h : Complete so tp rules A p) :
    Complete so tp' rules' A p := by
  have hh : ∀ ss, HasRule rules A ss → HasRule rules' A ss := fun ss ⟨r, h1, h2⟩ => ⟨r, hr h1, h2⟩
  cases p with
  | alternative ps =>
    intro p hp
    obtain ⟨ss, h1, h2⟩ := h p hp
    exact ⟨ss, h1.mono hle, hh _ h2⟩
  | oneOrMany p => obtain ⟨ss, h1, h2, h3⟩ := h; exact ⟨ss, h1.mono hle, hh _ h2, hh _ h3⟩
  | zeroOrMany p => obtain ⟨ss, h1, h2, h3⟩ := h; exact ⟨ss, h1.mono hle, hh _ h2, hh _ h3⟩
  | optional p => obtain ⟨ss, h1, h2, h3⟩ := h; exact ⟨ss, h1.mono hle, hh _ h2, hh _ h3⟩
  | sequence ps => exact h.elim
  | rule n => exact h.elim
  | epsilon => exact h.elim

end Mono

/-- a rule is a rule of a helper non-terminal or of a production -/
def GoodRule (prods : List ProdRule) (so : String → Option Sym) (tp : Nat → Option ProdPattern) (r : Rule) : Prop :=
  (∃ p, tp r.lhs = some p ∧ RhsOf so tp r.lhs p r.rhs) ∨
  (∃ pr, prods[r.origin]? = some pr ∧ so pr.name = some (.nt r.lhs) ∧ Trans so tp pr.pattern r.rhs)

theorem GoodRule.mono {prods : List ProdRule} {so : String → Option Sym} {tp tp' : Nat → Option ProdPattern} (hle : Le tp tp') {r : Rule}
    (h : GoodRule prods so tp r) : GoodRule prods so tp' r := by
  rcases h with ⟨p, h1, h2⟩ | ⟨pr, h1, h2, h3⟩
  · exact .inl ⟨p, hle _ _ h1, h2.mono hle⟩
  · exact .inr ⟨pr, h1, h2, h3.mono hle⟩

/-- how builder state `b'` extends `b`, where `pats` are the patterns of `b`'s helpers and `ext` those of the new ones -/
structure Step (prods : List ProdRule) (b b' : GrammarBuilder) (pats ext : List ProdPattern) : Prop where
  symbols : b'.symbols = b.symbols
  maxSymbol : b'.maxSymbol = b.maxSymbol
  tokens : b'.tokens = b.tokens
  productions : b'.productions = b.productions
  len : pats.length = b.tempCount
  temp : b'.tempCount = b.tempCount + ext.length
  anon : b'.anon = b.anon ++ (List.range' (b.maxSymbol + 1 + b.tempCount) ext.length).map Sym.nt
  rules : ∃ nr, b'.rules = b.rules ++ nr ∧ ∀ r ∈ nr, GoodRule prods (symOf b.symbols) (tpOf (b.maxSymbol + 1) (pats ++ ext)) r

theorem Step.refl {prods : List ProdRule} {b : GrammarBuilder} {pats : List ProdPattern} (h : pats.length = b.tempCount) : Step prods b b pats [] :=
  ⟨rfl, rfl, rfl, rfl, h, by simp, by simp, [], by simp, by simp⟩

theorem Step.trans {prods : List ProdRule} {b b1 b2 : GrammarBuilder} {pats e1 e2 : List ProdPattern} (h1 : Step prods b b1 pats e1)
    (h2 : Step prods b1 b2 (pats ++ e1) e2) : Step prods b b2 pats (e1 ++ e2) := by
  obtain ⟨n1, hn1, hg1⟩ := h1.rules
  obtain ⟨n2, hn2, hg2⟩ := h2.rules
  refine ⟨by rw [h2.symbols, h1.symbols], by rw [h2.maxSymbol, h1.maxSymbol], by rw [h2.tokens, h1.tokens],
    by rw [h2.productions, h1.productions], h1.len, by rw [h2.temp, h1.temp, List.length_append]; omega, ?_, n1 ++ n2, ?_, ?_⟩
  · rw [h2.anon, h1.anon, h1.maxSymbol, h1.temp, List.append_assoc, ← List.map_append, List.length_append, ← Nat.add_assoc,
      List.range'_append_1]
  · rw [hn2, hn1, List.append_assoc]
  · intro r hr
    rcases List.mem_append.mp hr with hr | hr
    · rw [← List.append_assoc]; exact (hg1 r hr).mono (tpOf_append _ _ _)
    · have := hg2 r hr
      rw [h1.symbols, h1.maxSymbol, List.append_assoc] at this
      exact this

theorem Step.subset {prods : List ProdRule} {b b1 : GrammarBuilder} {pats e1 : List ProdPattern} (h1 : Step prods b b1 pats e1) : b.rules ⊆ b1.rules := by
  obtain ⟨n1, hn1, -⟩ := h1.rules
  rw [hn1]; exact List.subset_append_left _ _

theorem Step.len' {prods : List ProdRule} {b b1 : GrammarBuilder} {pats e1 : List ProdPattern} (h1 : Step prods b b1 pats e1) :
    (pats ++ e1).length = b1.tempCount := by
  rw [List.length_append, h1.len, h1.temp]

theorem getTemp_step {prods : List ProdRule} {b b' : GrammarBuilder} {i : Nat} {pats : List ProdPattern} (hl : pats.length = b.tempCount)
    (h : b.getTempSymbol = .ok (i, b')) (p : ProdPattern) :
    Step prods b b' pats [p] ∧ tpOf (b.maxSymbol + 1) (pats ++ [p]) i = some p ∧ i = b.maxSymbol + 1 + pats.length := by
  unfold GrammarBuilder.getTempSymbol at h
  simp only at h
  split at h
  · simp only [Except.ok.injEq, Prod.mk.injEq] at h
    obtain ⟨rfl, rfl⟩ := h
    refine ⟨⟨rfl, rfl, rfl, rfl, hl, rfl, ?_, [], by simp, by simp⟩, ?_, by omega⟩
    · simp; omega
    · unfold tpOf
      rw [if_neg (by omega), show b.tempCount + b.maxSymbol + 1 - (b.maxSymbol + 1) = pats.length by omega]
      simp
  · simp at h

theorem push_step {prods : List ProdRule} {b : GrammarBuilder} {pats : List ProdPattern} (hl : pats.length = b.tempCount) {A : Nat} {ss : List Sym} {o : Nat}
    (hg : GoodRule prods (symOf b.symbols) (tpOf (b.maxSymbol + 1) pats) ⟨A, ss, o⟩) : Step prods b (b.pushRule A ss o) pats [] :=
  ⟨rfl, rfl, rfl, rfl, hl, by simp [GrammarBuilder.pushRule], by simp [GrammarBuilder.pushRule], [⟨A, ss, o⟩], rfl,
    by intro r hr; rw [List.mem_singleton.mp hr]; simpa using hg⟩

theorem has_push (b : GrammarBuilder) (A : Nat) (ss : List Sym) (o : Nat) : HasRule (b.pushRule A ss o).rules A ss :=
  ⟨⟨A, ss, o⟩, by simp [GrammarBuilder.pushRule], rfl, rfl⟩

theorem HasRule.mono {rules rules' : List Rule} (hr : rules ⊆ rules') {A : Nat} {ss : List Sym} (h : HasRule rules A ss) : HasRule rules' A ss :=
  let ⟨r, h1, h2⟩ := h; ⟨r, hr h1, h2⟩

/-- all new helpers are complete -/
def NewComplete (b b' : GrammarBuilder) (pats ext : List ProdPattern) : Prop :=
  ∀ k p, ext[k]? = some p →
    Complete (symOf b.symbols) (tpOf (b.maxSymbol + 1) (pats ++ ext)) b'.rules (b.maxSymbol + 1 + pats.length + k) p

theorem NewComplete.append {prods : List ProdRule} {b b1 b2 : GrammarBuilder} {pats e1 e2 : List ProdPattern} (s1 : Step prods b b1 pats e1)
    (s2 : Step prods b1 b2 (pats ++ e1) e2) (h1 : NewComplete b b1 pats e1) (h2 : NewComplete b1 b2 (pats ++ e1) e2) :
    NewComplete b b2 pats (e1 ++ e2) := by
  intro k p hk
  rcases Nat.lt_or_ge k e1.length with hlt | hge
  · rw [List.getElem?_append_left hlt] at hk
    rw [← List.append_assoc]
    exact (h1 k p hk).mono (tpOf_append _ _ _) s2.subset
  · rw [List.getElem?_append_right hge] at hk
    have := h2 _ _ hk
    rw [s1.symbols, s1.maxSymbol, List.append_assoc] at this
    rw [List.length_append] at this
    rw [show b.maxSymbol + 1 + pats.length + k = b.maxSymbol + 1 + (pats.length + e1.length) + (k - e1.length) by omega]
    exact this

theorem NewComplete.nil (b b' : GrammarBuilder) (pats : List ProdPattern) : NewComplete b b' pats [] := by
  intro k p h; simp at h

theorem NewComplete.mono {b b' b'' : GrammarBuilder} {pats ext : List ProdPattern} (h : NewComplete b b' pats ext) (hs : b'.rules ⊆ b''.rules) :
    NewComplete b b'' pats ext := fun k p hk => (h k p hk).mono (fun _ _ h => h) hs

mutual
theorem transformPattern_spec (prods : List ProdRule) (o : Nat) : ∀ (p : ProdPattern) (b b' : GrammarBuilder) (ss : List Sym) (pats : List ProdPattern),
    pats.length = b.tempCount → transformPattern o p b = .ok (ss, b') →
    ∃ ext, Step prods b b' pats ext ∧ ext.length = p.operators ∧
      Trans (symOf b.symbols) (tpOf (b.maxSymbol + 1) (pats ++ ext)) p ss ∧ NewComplete b b' pats ext ∧ (∀ q ∈ ext, Occurs q p)
  | .sequence ps, b, b', ss, pats, hl, h => by
    rw [transformPattern] at h
    rw [ProdPattern.operators]
    obtain ⟨ext, h1, h2, h3, h4, h5⟩ := transformSeq_spec prods o ps b b' ss pats hl h
    exact ⟨ext, h1, h2, h3, h4, fun q hq => let ⟨p, hp, h⟩ := h5 q hq; .sequence hp h⟩
  | .alternative ps, b, b', ss, pats, hl, h => by
    rw [transformPattern] at h
    obtain ⟨⟨A, b1⟩, h1, h⟩ := gres_bind_ok.mp h
    obtain ⟨b2, h2, h⟩ := gres_bind_ok.mp h
    simp only [Except.ok.injEq, Prod.mk.injEq] at h
    obtain ⟨rfl, rfl⟩ := h
    obtain ⟨s1, t1, hA⟩ := getTemp_step (prods := prods) hl h1 (.alternative ps)
    obtain ⟨ext, s2, e2, c2, n2, m2⟩ := transformAlts_spec prods o A ps ps b1 b2 (pats ++ [.alternative ps]) (fun _ h => h) s1.len'
      (by rw [s1.maxSymbol]; exact t1) h2
    have s12 := s1.trans s2
    refine ⟨_, s12, by rw [List.length_append, e2, ProdPattern.operators]; simp; omega, .alt ?_, ?_, fun x hm => ?_⟩
    rotate_right
    · rcases List.mem_append.mp hm with hm | hm
      · rw [List.mem_singleton.mp hm]; exact .here
      · obtain ⟨p, hp, h⟩ := m2 x hm; exact .alternative hp h
    · rw [← List.append_assoc]; exact tpOf_append _ _ _ _ _ t1
    · intro k p hk
      cases k with
      | zero =>
        simp only [List.singleton_append, List.getElem?_cons_zero, Option.some.injEq] at hk
        subst hk
        intro p hp
        obtain ⟨ss, q1, q2⟩ := c2 p hp
        rw [s1.symbols, s1.maxSymbol, List.append_assoc] at q1
        exact ⟨ss, q1, by rw [Nat.add_zero, ← hA]; exact q2⟩
      | succ k =>
        simp only [List.singleton_append, List.getElem?_cons_succ] at hk
        have := n2 k p hk
        rw [s1.symbols, s1.maxSymbol, List.append_assoc, List.length_append] at this
        rw [show b.maxSymbol + 1 + pats.length + (k + 1) = b.maxSymbol + 1 + (pats.length + [ProdPattern.alternative ps].length) + k by simp; omega]
        exact this
  | .oneOrMany q, b, b', ss, pats, hl, h => by
    rw [transformPattern] at h
    obtain ⟨⟨A, b1⟩, h1, h⟩ := gres_bind_ok.mp h
    obtain ⟨⟨inner, b2⟩, h2, h⟩ := gres_bind_ok.mp h
    simp only [Except.ok.injEq, Prod.mk.injEq] at h
    obtain ⟨rfl, rfl⟩ := h
    obtain ⟨s1, t1, hA⟩ := getTemp_step (prods := prods) hl h1 (.oneOrMany q)
    obtain ⟨ext, s2, e2, r2, n2, m2⟩ := transformPattern_spec prods o q b1 b2 inner (pats ++ [.oneOrMany q]) s1.len' h2
    have s12 := s1.trans s2
    rw [s1.symbols, s1.maxSymbol] at r2
    have t2 := tpOf_append (b.maxSymbol + 1) (pats ++ [.oneOrMany q]) ext _ _ t1
    have s3 := push_step (prods := prods) (A := A) (ss := inner) (o := o) s12.len'
      (by rw [s12.symbols, s12.maxSymbol, ← List.append_assoc]; exact .inl ⟨_, t2, .plusOne r2⟩)
    have s4 := push_step (prods := prods) (A := A) (ss := inner ++ [.nt A]) (o := o) s3.len'
      (by rw [s3.symbols, s3.maxSymbol, s12.symbols, s12.maxSymbol, List.append_nil, ← List.append_assoc]; exact .inl ⟨_, t2, .plusMore r2⟩)
    have s123 := s12.trans s3
    simp only [List.append_nil] at s123 s4
    have sF := s123.trans s4
    simp only [List.append_nil] at sF
    refine ⟨_, sF, by rw [List.length_append, e2, ProdPattern.operators]; simp; omega, .plus ?_, ?_, fun x hm => ?_⟩
    rotate_right
    · rcases List.mem_append.mp hm with hm | hm
      · rw [List.mem_singleton.mp hm]; exact .here
      · exact .oneOrMany (m2 x hm)
    · rw [← List.append_assoc]; exact t2
    · intro k p hk
      cases k with
      | zero =>
        simp only [List.singleton_append, List.getElem?_cons_zero, Option.some.injEq] at hk
        subst hk
        rw [← List.append_assoc, Nat.add_zero, ← hA]
        exact ⟨inner, r2, (has_push _ _ _ _).mono s4.subset, has_push _ _ _ _⟩
      | succ k =>
        simp only [List.singleton_append, List.getElem?_cons_succ] at hk
        have := (n2.mono (fun x hx => s4.subset (s3.subset hx))) k p hk
        rw [s1.symbols, s1.maxSymbol, List.append_assoc, List.length_append] at this
        rw [show b.maxSymbol + 1 + pats.length + (k + 1) = b.maxSymbol + 1 + (pats.length + [ProdPattern.oneOrMany q].length) + k by simp; omega]
        exact this
  | .zeroOrMany q, b, b', ss, pats, hl, h => by
    rw [transformPattern] at h
    obtain ⟨⟨A, b1⟩, h1, h⟩ := gres_bind_ok.mp h
    obtain ⟨⟨inner, b2⟩, h2, h⟩ := gres_bind_ok.mp h
    simp only [Except.ok.injEq, Prod.mk.injEq] at h
    obtain ⟨rfl, rfl⟩ := h
    obtain ⟨s1, t1, hA⟩ := getTemp_step (prods := prods) hl h1 (.zeroOrMany q)
    obtain ⟨ext, s2, e2, r2, n2, m2⟩ := transformPattern_spec prods o q b1 b2 inner (pats ++ [.zeroOrMany q]) s1.len' h2
    have s12 := s1.trans s2
    rw [s1.symbols, s1.maxSymbol] at r2
    have t2 := tpOf_append (b.maxSymbol + 1) (pats ++ [.zeroOrMany q]) ext _ _ t1
    have s3 := push_step (prods := prods) (A := A) (ss := [.eps]) (o := o) s12.len'
      (by rw [s12.symbols, s12.maxSymbol, ← List.append_assoc]; exact .inl ⟨_, t2, .starNil⟩)
    have s4 := push_step (prods := prods) (A := A) (ss := inner ++ [.nt A]) (o := o) s3.len'
      (by rw [s3.symbols, s3.maxSymbol, s12.symbols, s12.maxSymbol, List.append_nil, ← List.append_assoc]; exact .inl ⟨_, t2, .starMore r2⟩)
    have s123 := s12.trans s3
    simp only [List.append_nil] at s123 s4
    have sF := s123.trans s4
    simp only [List.append_nil] at sF
    refine ⟨_, sF, by rw [List.length_append, e2, ProdPattern.operators]; simp; omega, .star ?_, ?_, fun x hm => ?_⟩
    rotate_right
    · rcases List.mem_append.mp hm with hm | hm
      · rw [List.mem_singleton.mp hm]; exact .here
      · exact .zeroOrMany (m2 x hm)
    · rw [← List.append_assoc]; exact t2
    · intro k p hk
      cases k with
      | zero =>
        simp only [List.singleton_append, List.getElem?_cons_zero, Option.some.injEq] at hk
        subst hk
        rw [← List.append_assoc, Nat.add_zero, ← hA]
        exact ⟨inner, r2, (has_push _ _ _ _).mono s4.subset, has_push _ _ _ _⟩
      | succ k =>
        simp only [List.singleton_append, List.getElem?_cons_succ] at hk
        have := (n2.mono (fun x hx => s4.subset (s3.subset hx))) k p hk
        rw [s1.symbols, s1.maxSymbol, List.append_assoc, List.length_append] at this
        rw [show b.maxSymbol + 1 + pats.length + (k + 1) = b.maxSymbol + 1 + (pats.length + [ProdPattern.zeroOrMany q].length) + k by simp; omega]
        exact this
  | .optional q, b, b', ss, pats, hl, h => by
    rw [transformPattern] at h
    obtain ⟨⟨A, b1⟩, h1, h⟩ := gres_bind_ok.mp h
    obtain ⟨⟨inner, b2⟩, h2, h⟩ := gres_bind_ok.mp h
    simp only [Except.ok.injEq, Prod.mk.injEq] at h
    obtain ⟨rfl, rfl⟩ := h
    obtain ⟨s1, t1, hA⟩ := getTemp_step (prods := prods) hl h1 (.optional q)
    obtain ⟨ext, s2, e2, r2, n2, m2⟩ := transformPattern_spec prods o q b1 b2 inner (pats ++ [.optional q]) s1.len' h2
    have s12 := s1.trans s2
    rw [s1.symbols, s1.maxSymbol] at r2
    have t2 := tpOf_append (b.maxSymbol + 1) (pats ++ [.optional q]) ext _ _ t1
    have s3 := push_step (prods := prods) (A := A) (ss := inner) (o := o) s12.len'
      (by rw [s12.symbols, s12.maxSymbol, ← List.append_assoc]; exact .inl ⟨_, t2, .optSome r2⟩)
    have s4 := push_step (prods := prods) (A := A) (ss := [.eps]) (o := o) s3.len'
      (by rw [s3.symbols, s3.maxSymbol, s12.symbols, s12.maxSymbol, List.append_nil, ← List.append_assoc]; exact .inl ⟨_, t2, .optNone⟩)
    have s123 := s12.trans s3
    simp only [List.append_nil] at s123 s4
    have sF := s123.trans s4
    simp only [List.append_nil] at sF
    refine ⟨_, sF, by rw [List.length_append, e2, ProdPattern.operators]; simp; omega, .opt ?_, ?_, fun x hm => ?_⟩
    rotate_right
    · rcases List.mem_append.mp hm with hm | hm
      · rw [List.mem_singleton.mp hm]; exact .here
      · exact .optional (m2 x hm)
    · rw [← List.append_assoc]; exact t2
    · intro k p hk
      cases k with
      | zero =>
        simp only [List.singleton_append, List.getElem?_cons_zero, Option.some.injEq] at hk
        subst hk
        rw [← List.append_assoc, Nat.add_zero, ← hA]
        exact ⟨inner, r2, (has_push _ _ _ _).mono s4.subset, has_push _ _ _ _⟩
      | succ k =>
        simp only [List.singleton_append, List.getElem?_cons_succ] at hk
        have := (n2.mono (fun x hx => s4.subset (s3.subset hx))) k p hk
        rw [s1.symbols, s1.maxSymbol, List.append_assoc, List.length_append] at this
        rw [show b.maxSymbol + 1 + pats.length + (k + 1) = b.maxSymbol + 1 + (pats.length + [ProdPattern.optional q].length) + k by simp; omega]
        exact this
  | .rule n, b, b', ss, pats, hl, h => by
    rw [transformPattern] at h
    obtain ⟨s, h1, h⟩ := gres_bind_ok.mp h
    simp only [Except.ok.injEq, Prod.mk.injEq] at h
    obtain ⟨rfl, rfl⟩ := h
    refine ⟨[], Step.refl hl, by simp [ProdPattern.operators], .rule ?_, NewComplete.nil _ _ _, by simp⟩
    unfold GrammarBuilder.getSymbolByName at h1
    unfold symOf
    cases hq : symLookup n b.symbols with
    | none => rw [hq] at h1; simp at h1
    | some v => obtain ⟨v1, v2⟩ := v; rw [hq] at h1; simp at h1; simp [h1]
  | .epsilon, b, b', ss, pats, hl, h => by
    rw [transformPattern] at h
    simp only [Except.ok.injEq, Prod.mk.injEq] at h
    obtain ⟨rfl, rfl⟩ := h
    exact ⟨[], Step.refl hl, by simp [ProdPattern.operators], .epsilon, NewComplete.nil _ _ _, by simp⟩
theorem transformSeq_spec (prods : List ProdRule) (o : Nat) : ∀ (ps : List ProdPattern) (b b' : GrammarBuilder) (ss : List Sym) (pats : List ProdPattern),
    pats.length = b.tempCount → transformSeq o ps b = .ok (ss, b') →
    ∃ ext, Step prods b b' pats ext ∧ ext.length = ProdPattern.operatorsList ps ∧
      Trans (symOf b.symbols) (tpOf (b.maxSymbol + 1) (pats ++ ext)) (.sequence ps) ss ∧ NewComplete b b' pats ext ∧ (∀ q ∈ ext, ∃ p ∈ ps, Occurs q p)
  | [], b, b', ss, pats, hl, h => by
    rw [transformSeq] at h
    simp only [Except.ok.injEq, Prod.mk.injEq] at h
    obtain ⟨rfl, rfl⟩ := h
    exact ⟨[], Step.refl hl, by simp [ProdPattern.operatorsList], .seqNil, NewComplete.nil _ _ _, by simp⟩
  | p :: ps, b, b', ss, pats, hl, h => by
    rw [transformSeq] at h
    obtain ⟨⟨u, b1⟩, h1, h⟩ := gres_bind_ok.mp h
    obtain ⟨⟨v, b2⟩, h2, h⟩ := gres_bind_ok.mp h
    simp only [Except.ok.injEq, Prod.mk.injEq] at h
    obtain ⟨rfl, rfl⟩ := h
    obtain ⟨e1, s1, l1, r1, n1, m1⟩ := transformPattern_spec prods o p b b1 u pats hl h1
    obtain ⟨e2, s2, l2, r2, n2, m2⟩ := transformSeq_spec prods o ps b1 b2 v (pats ++ e1) s1.len' h2
    refine ⟨e1 ++ e2, s1.trans s2, by rw [List.length_append, l1, l2, ProdPattern.operatorsList], .seqCons ?_ ?_, NewComplete.append s1 s2 n1 n2,
      fun x hm => (List.mem_append.mp hm).elim (fun h => ⟨_, List.mem_cons_self, m1 x h⟩) (fun h => let ⟨q, hq, h⟩ := m2 x h; ⟨q, List.mem_cons_of_mem _ hq, h⟩)⟩
    · rw [← List.append_assoc]; exact r1.mono (tpOf_append _ _ _)
    · rw [s1.symbols, s1.maxSymbol, List.append_assoc] at r2; exact r2
theorem transformAlts_spec (prods : List ProdRule) (o : Nat) (A : Nat) : ∀ (all ps : List ProdPattern) (b b' : GrammarBuilder) (pats : List ProdPattern),
    ps ⊆ all → pats.length = b.tempCount → tpOf (b.maxSymbol + 1) pats A = some (.alternative all) → transformAlts o A ps b = .ok b' →
    ∃ ext, Step prods b b' pats ext ∧ ext.length = ProdPattern.operatorsList ps ∧
      (∀ p ∈ ps, ∃ ss, Trans (symOf b.symbols) (tpOf (b.maxSymbol + 1) (pats ++ ext)) p ss ∧ HasRule b'.rules A ss) ∧ NewComplete b b' pats ext ∧ (∀ q ∈ ext, ∃ p ∈ ps, Occurs q p)
  | all, [], b, b', pats, _, hl, _, h => by
    rw [transformAlts] at h
    simp only [Except.ok.injEq] at h
    subst h
    exact ⟨[], Step.refl hl, by simp [ProdPattern.operatorsList], by simp, NewComplete.nil _ _ _, by simp⟩
  | all, p :: ps, b, b', pats, hsub, hl, ht, h => by
    rw [transformAlts] at h
    obtain ⟨⟨u, b1⟩, h1, h⟩ := gres_bind_ok.mp h
    simp only at h
    obtain ⟨e1, s1, l1, r1, n1, m1⟩ := transformPattern_spec prods o p b b1 u pats hl h1
    have t1 := tpOf_append (b.maxSymbol + 1) pats e1 _ _ ht
    have sp := push_step (prods := prods) (A := A) (ss := u) (o := o) s1.len'
      (by rw [s1.symbols, s1.maxSymbol]; exact .inl ⟨_, t1, .alt (hsub List.mem_cons_self) r1⟩)
    have s1p := s1.trans sp
    rw [List.append_nil] at s1p
    obtain ⟨e2, s2, l2, r2, n2, m2⟩ := transformAlts_spec prods o A all ps (b1.pushRule A u o) b' (pats ++ e1)
      (fun x hx => hsub (List.mem_cons_of_mem _ hx)) s1p.len' (by rw [s1p.maxSymbol]; exact t1) h
    refine ⟨e1 ++ e2, s1p.trans s2, by rw [List.length_append, l1, l2, ProdPattern.operatorsList], ?_,
      NewComplete.append s1p s2 (n1.mono sp.subset) n2,
      fun x hm => (List.mem_append.mp hm).elim (fun h => ⟨_, List.mem_cons_self, m1 x h⟩) (fun h => let ⟨q, hq, h⟩ := m2 x h; ⟨q, List.mem_cons_of_mem _ hq, h⟩)⟩
    intro q hq
    rcases List.mem_cons.mp hq with rfl | hq
    · exact ⟨u, by rw [← List.append_assoc]; exact r1.mono (tpOf_append _ _ _), (has_push _ _ _ _).mono s2.subset⟩
    · obtain ⟨ss, q1, q2⟩ := r2 q hq
      rw [s1p.symbols, s1p.maxSymbol, List.append_assoc] at q1
      exact ⟨ss, q1, q2⟩
end

theorem addProductionRules_spec (prods : List ProdRule) : ∀ (rs : List ProdRule) (i : Nat) (b b' : GrammarBuilder) (pats : List ProdPattern),
    pats.length = b.tempCount → (∀ k, rs[k]? = prods[i + k]?) → GrammarBuilder.addProductionRules i rs b = .ok b' →
    ∃ ext, Step prods b b' pats ext ∧ ext.length = (rs.map (fun p => p.pattern.operators)).sum ∧
      (∀ p ∈ rs, ∃ A ss, symOf b.symbols p.name = some (.nt A) ∧
        Trans (symOf b.symbols) (tpOf (b.maxSymbol + 1) (pats ++ ext)) p.pattern ss ∧ HasRule b'.rules A ss) ∧ NewComplete b b' pats ext ∧ (∀ q ∈ ext, ∃ p ∈ rs, Occurs q p.pattern) := by
  intro rs
  induction rs with
  | nil =>
    intro i b b' pats hl _ h
    simp only [GrammarBuilder.addProductionRules, Except.ok.injEq] at h
    subst h
    exact ⟨[], Step.refl hl, by simp, by simp, NewComplete.nil _ _ _, by simp⟩
  | cons r rs ih =>
    intro i b b' pats hl hp h
    rw [GrammarBuilder.addProductionRules] at h
    obtain ⟨b1, h1, h⟩ := gres_bind_ok.mp h
    unfold GrammarBuilder.addProductionRule at h1
    obtain ⟨s, hs, h1⟩ := gres_bind_ok.mp h1
    obtain ⟨⟨u, b0⟩, h2, h1⟩ := gres_bind_ok.mp h1
    have hso : symOf b.symbols r.name = some s := by
      unfold GrammarBuilder.getSymbolByName at hs
      unfold symOf
      cases hq : symLookup r.name b.symbols with
      | none => rw [hq] at hs; simp at hs
      | some v => obtain ⟨v1, v2⟩ := v; rw [hq] at hs; simp at hs; simp [hs]
    cases s with
    | eps => simp at h1
    | eof => simp at h1
    | t a => simp at h1
    | nt A =>
      simp only [Except.ok.injEq] at h1
      obtain ⟨e1, s1, l1, r1, n1, m1⟩ := transformPattern_spec prods i r.pattern b b0 u pats hl h2
      have hr : prods[i]? = some r := by simpa using (hp 0).symm
      have sp := push_step (prods := prods) (A := A) (ss := u) (o := i) s1.len'
        (by rw [s1.symbols, s1.maxSymbol]; exact .inr ⟨r, hr, hso, r1⟩)
      have s1p := s1.trans sp
      rw [List.append_nil, h1] at s1p
      rw [h1] at sp
      have hh : HasRule b1.rules A u := by rw [← h1]; exact has_push _ _ _ _
      obtain ⟨e2, s2, l2, r2, n2, m2⟩ := ih (i + 1) b1 b' (pats ++ e1) s1p.len'
        (fun k => by have := hp (k + 1); rw [List.getElem?_cons_succ] at this; rw [this, show i + (k + 1) = i + 1 + k by omega]) h
      refine ⟨e1 ++ e2, s1p.trans s2, by rw [List.length_append, l1, l2]; simp, ?_, NewComplete.append s1p s2 (n1.mono sp.subset) n2,
      fun x hm => (List.mem_append.mp hm).elim (fun h => ⟨_, List.mem_cons_self, m1 x h⟩) (fun h => let ⟨q, hq, h⟩ := m2 x h; ⟨q, List.mem_cons_of_mem _ hq, h⟩)⟩
      intro q hq
      rcases List.mem_cons.mp hq with rfl | hq
      · exact ⟨A, u, hso, by rw [← List.append_assoc]; exact r1.mono (tpOf_append _ _ _), hh.mono s2.subset⟩
      · obtain ⟨A', ss, q0, q1, q2⟩ := r2 q hq
        rw [s1p.symbols, s1p.maxSymbol, List.append_assoc] at q1
        rw [s1p.symbols] at q0
        exact ⟨A', ss, q0, q1, q2⟩

end Verif
