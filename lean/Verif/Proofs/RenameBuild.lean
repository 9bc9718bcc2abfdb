import Verif.Spec.Rename
import Verif.Proofs.GrammarErr
import Verif.Proofs.GrammarLang

/-!
# Where the rules of a grammar come from: the rules of each production, independent of all others
-/

set_option autoImplicit false

namespace Verif

/-- a symbol, independent of numbers: a name or the `j`-th helper of the production -/
inductive KSym where
  | eps
  | name (n : String)
  | anon (j : Nat)

/-- a rule, independent of numbers -/
structure KRule where
  lhs : KSym
  rhs : List KSym

mutual
/-- the symbols a body is turned into, when `j` helpers have been made already -/
def ksyms : ProdPattern → Nat → List KSym
  | .sequence ps, j => ksymsSeq ps j
  | .alternative _, j => [.anon j]
  | .oneOrMany _, j => [.anon j]
  | .zeroOrMany _, j => [.anon j]
  | .optional _, j => [.anon j]
  | .rule n, _ => [.name n]
  | .epsilon, _ => [.eps]
def ksymsSeq : List ProdPattern → Nat → List KSym
  | [], _ => []
  | p :: ps, j => ksyms p j ++ ksymsSeq ps (j + p.operators)
end

mutual
/-- the rules for the helpers of a body -/
def krules : ProdPattern → Nat → List KRule
  | .sequence ps, j => krulesSeq ps j
  | .alternative ps, j => krulesAlts j ps (j + 1)
  | .oneOrMany p, j => krules p (j + 1) ++ [⟨.anon j, ksyms p (j + 1)⟩] ++ [⟨.anon j, ksyms p (j + 1) ++ [.anon j]⟩]
  | .zeroOrMany p, j => krules p (j + 1) ++ [⟨.anon j, [.eps]⟩] ++ [⟨.anon j, ksyms p (j + 1) ++ [.anon j]⟩]
  | .optional p, j => krules p (j + 1) ++ [⟨.anon j, ksyms p (j + 1)⟩] ++ [⟨.anon j, [.eps]⟩]
  | .rule _, _ => []
  | .epsilon, _ => []
def krulesSeq : List ProdPattern → Nat → List KRule
  | [], _ => []
  | p :: ps, j => krules p j ++ krulesSeq ps (j + p.operators)
def krulesAlts (i : Nat) : List ProdPattern → Nat → List KRule
  | [], _ => []
  | p :: ps, j => krules p j ++ [⟨.anon i, ksyms p j⟩] ++ krulesAlts i ps (j + p.operators)
end

/-- all rules of a production -/
def kblock (p : String × ProdPattern) : List KRule := krules p.2 0 ++ [⟨.name p.1, ksyms p.2 0⟩]

/-- the number of a symbol -/
def KSym.enc (so : String → Option Sym) (base : Nat) : KSym → Sym
  | .eps => .eps
  | .name n => (so n).getD .eps
  | .anon j => .nt (base + j)

def KRule.enc (so : String → Option Sym) (base : Nat) (r : KRule) : Nat × List Sym := ((r.lhs.enc so base).index, r.rhs.map (KSym.enc so base))

/-- names are known, helpers are among those made -/
def KSym.Ok (so : String → Option Sym) (lo hi : Nat) : KSym → Prop
  | .eps => True
  | .name n => ∃ s, so n = some s
  | .anon j => lo ≤ j ∧ j < hi

def KRule.Ok (so : String → Option Sym) (lo hi : Nat) (r : KRule) : Prop := (∃ j, r.lhs = .anon j ∧ lo ≤ j ∧ j < hi) ∧ ∀ s ∈ r.rhs, KSym.Ok so lo hi s

theorem KSym.Ok.mono {so : String → Option Sym} {lo hi lo' hi' : Nat} (h1 : lo' ≤ lo) (h2 : hi ≤ hi') {s : KSym} (h : KSym.Ok so lo hi s) : KSym.Ok so lo' hi' s := by
  cases s with
  | eps => trivial
  | name n => exact h
  | anon j => exact ⟨by have := h.1; omega, by have := h.2; omega⟩

theorem KRule.Ok.mono {so : String → Option Sym} {lo hi lo' hi' : Nat} (h1 : lo' ≤ lo) (h2 : hi ≤ hi') {r : KRule} (h : KRule.Ok so lo hi r) : KRule.Ok so lo' hi' r := by
  obtain ⟨⟨j, a, b, c⟩, d⟩ := h
  exact ⟨⟨j, a, by omega, by omega⟩, fun s hs => (d s hs).mono h1 h2⟩

/-- what a rule is, apart from where it comes from -/
def Rule.core (r : Rule) : Nat × List Sym := (r.lhs, r.rhs)

/-- what transforming a pattern adds -/
structure Adds (b b' : GrammarBuilder) (n : Nat) (rules : List (Nat × List Sym)) : Prop where
  symbols : b'.symbols = b.symbols
  maxSymbol : b'.maxSymbol = b.maxSymbol
  temp : b'.tempCount = b.tempCount + n
  rules : b'.rules.map Rule.core = b.rules.map Rule.core ++ rules

theorem Adds.refl (b : GrammarBuilder) : Adds b b 0 [] := ⟨rfl, rfl, rfl, by simp⟩

theorem Adds.trans {a b c : GrammarBuilder} {m n : Nat} {r s : List (Nat × List Sym)} (h : Adds a b m r) (k : Adds b c n s) : Adds a c (m + n) (r ++ s) :=
  ⟨by rw [k.symbols, h.symbols], by rw [k.maxSymbol, h.maxSymbol], by rw [k.temp, h.temp]; omega, by rw [k.rules, h.rules, List.append_assoc]⟩

theorem Adds.push (b : GrammarBuilder) (A : Nat) (ss : List Sym) (o : Nat) : Adds b (b.pushRule A ss o) 0 [(A, ss)] :=
  ⟨rfl, rfl, rfl, by simp [GrammarBuilder.pushRule, Rule.core]⟩

theorem getTemp_adds {b b' : GrammarBuilder} {i : Nat} (h : b.getTempSymbol = .ok (i, b')) : i = b.tempCount + b.maxSymbol + 1 ∧ Adds b b' 1 [] := by
  unfold GrammarBuilder.getTempSymbol at h
  simp only at h
  split at h
  · simp only [Except.ok.injEq, Prod.mk.injEq] at h
    obtain ⟨rfl, rfl⟩ := h
    exact ⟨rfl, rfl, rfl, rfl, by simp⟩
  · simp at h

/-- numbers of the next helper -/
def At (b : GrammarBuilder) (base j : Nat) : Prop := base + j = b.tempCount + b.maxSymbol + 1

theorem At.next {b b' : GrammarBuilder} {base j n : Nat} {r : List (Nat × List Sym)} (h : At b base j) (k : Adds b b' n r) : At b' base (j + n) := by
  unfold At at *; rw [k.temp, k.maxSymbol]; omega

mutual
theorem transformPattern_k (o : Nat) : ∀ (p : ProdPattern) (b b' : GrammarBuilder) (ss : List Sym) (base j : Nat), transformPattern o p b = .ok (ss, b') → At b base j →
    ss = (ksyms p j).map (KSym.enc (symOf b.symbols) base) ∧ Adds b b' p.operators ((krules p j).map (KRule.enc (symOf b.symbols) base)) ∧
    (∀ s ∈ ksyms p j, KSym.Ok (symOf b.symbols) j (j + p.operators) s) ∧ (∀ r ∈ krules p j, KRule.Ok (symOf b.symbols) j (j + p.operators) r)
  | .sequence ps, b, b', ss, base, j, h, ha => by
    rw [transformPattern] at h
    rw [ksyms, krules, ProdPattern.operators]
    exact transformSeq_k o ps b b' ss base j h ha
  | .alternative ps, b, b', ss, base, j, h, ha => by
    rw [transformPattern] at h
    obtain ⟨⟨i, b1⟩, h1, h⟩ := gres_bind_ok.mp h
    obtain ⟨b2, h2, h⟩ := gres_bind_ok.mp h
    simp only [Except.ok.injEq, Prod.mk.injEq] at h
    obtain ⟨rfl, rfl⟩ := h
    obtain ⟨hi, a1⟩ := getTemp_adds h1
    have hi : i = base + j := by rw [hi]; exact ha.symm
    subst hi
    obtain ⟨a2, k2⟩ := transformAlts_k o j ps b1 b2 base (j + 1) h2 (ha.next a1)
    rw [ksyms, krules, ProdPattern.operators, a1.symbols] at *
    refine ⟨rfl, ?_, ?_, ?_⟩
    · have := a1.trans a2
      rw [Nat.add_comm] at this
      exact this
    · simp [KSym.Ok]
    · intro r hr
      obtain ⟨x, y⟩ := k2 r hr
      refine ⟨?_, fun s hs => (y s hs).mono (by omega) (by omega)⟩
      obtain ⟨j', e, h3⟩ := x
      exact ⟨j', e, by omega, by omega⟩
  | .oneOrMany p, b, b', ss, base, j, h, ha => by
    rw [transformPattern] at h
    obtain ⟨⟨i, b1⟩, h1, h⟩ := gres_bind_ok.mp h
    obtain ⟨⟨u, b2⟩, h2, h⟩ := gres_bind_ok.mp h
    simp only [Except.ok.injEq, Prod.mk.injEq] at h
    obtain ⟨rfl, rfl⟩ := h
    obtain ⟨hi, a1⟩ := getTemp_adds h1
    have hi : i = base + j := by rw [hi]; exact ha.symm
    subst hi
    obtain ⟨e2, a2, s2, r2⟩ := transformPattern_k o p b1 b2 u base (j + 1) h2 (ha.next a1)
    rw [ksyms, krules, ProdPattern.operators]
    rw [a1.symbols] at e2 a2 s2 r2
    subst e2
    refine ⟨rfl, ?_, by simp [KSym.Ok], ?_⟩
    · have := ((a1.trans a2).trans (Adds.push b2 (base + j) ((ksyms p (j + 1)).map (KSym.enc (symOf b.symbols) base)) o)).trans
        (Adds.push _ (base + j) ((ksyms p (j + 1)).map (KSym.enc (symOf b.symbols) base) ++ [.nt (base + j)]) o)
      rw [show 1 + p.operators + 0 + 0 = p.operators + 1 by omega] at this
      simpa [KRule.enc, KSym.enc, Sym.index] using this
    · intro r hr
      simp only [List.mem_append, List.mem_cons, List.not_mem_nil, or_false] at hr
      rcases hr with (hr | rfl) | rfl
      · exact (r2 r hr).mono (by omega) (by omega)
      · exact ⟨⟨j, rfl, by omega, by omega⟩, fun s hs => (s2 s hs).mono (by omega) (by omega)⟩
      · refine ⟨⟨j, rfl, by omega, by omega⟩, fun s hs => ?_⟩
        simp only [List.mem_append, List.mem_cons, List.not_mem_nil, or_false] at hs
        rcases hs with hs | rfl
        · exact (s2 s hs).mono (by omega) (by omega)
        · exact ⟨by omega, by omega⟩
  | .zeroOrMany p, b, b', ss, base, j, h, ha => by
    rw [transformPattern] at h
    obtain ⟨⟨i, b1⟩, h1, h⟩ := gres_bind_ok.mp h
    obtain ⟨⟨u, b2⟩, h2, h⟩ := gres_bind_ok.mp h
    simp only [Except.ok.injEq, Prod.mk.injEq] at h
    obtain ⟨rfl, rfl⟩ := h
    obtain ⟨hi, a1⟩ := getTemp_adds h1
    have hi : i = base + j := by rw [hi]; exact ha.symm
    subst hi
    obtain ⟨e2, a2, s2, r2⟩ := transformPattern_k o p b1 b2 u base (j + 1) h2 (ha.next a1)
    rw [ksyms, krules, ProdPattern.operators]
    rw [a1.symbols] at e2 a2 s2 r2
    subst e2
    refine ⟨rfl, ?_, by simp [KSym.Ok], ?_⟩
    · have := ((a1.trans a2).trans (Adds.push b2 (base + j) [.eps] o)).trans (Adds.push _ (base + j) ((ksyms p (j + 1)).map (KSym.enc (symOf b.symbols) base) ++ [.nt (base + j)]) o)
      rw [show 1 + p.operators + 0 + 0 = p.operators + 1 by omega] at this
      simpa [KRule.enc, KSym.enc, Sym.index] using this
    · intro r hr
      simp only [List.mem_append, List.mem_cons, List.not_mem_nil, or_false] at hr
      rcases hr with (hr | rfl) | rfl
      · exact (r2 r hr).mono (by omega) (by omega)
      · exact ⟨⟨j, rfl, by omega, by omega⟩, by simp [KSym.Ok]⟩
      · refine ⟨⟨j, rfl, by omega, by omega⟩, fun s hs => ?_⟩
        simp only [List.mem_append, List.mem_cons, List.not_mem_nil, or_false] at hs
        rcases hs with hs | rfl
        · exact (s2 s hs).mono (by omega) (by omega)
        · exact ⟨by omega, by omega⟩
  | .optional p, b, b', ss, base, j, h, ha => by
    rw [transformPattern] at h
    obtain ⟨⟨i, b1⟩, h1, h⟩ := gres_bind_ok.mp h
    obtain ⟨⟨u, b2⟩, h2, h⟩ := gres_bind_ok.mp h
    simp only [Except.ok.injEq, Prod.mk.injEq] at h
    obtain ⟨rfl, rfl⟩ := h
    obtain ⟨hi, a1⟩ := getTemp_adds h1
    have hi : i = base + j := by rw [hi]; exact ha.symm
    subst hi
    obtain ⟨e2, a2, s2, r2⟩ := transformPattern_k o p b1 b2 u base (j + 1) h2 (ha.next a1)
    rw [ksyms, krules, ProdPattern.operators]
    rw [a1.symbols] at e2 a2 s2 r2
    subst e2
    refine ⟨rfl, ?_, by simp [KSym.Ok], ?_⟩
    · have := ((a1.trans a2).trans (Adds.push b2 (base + j) ((ksyms p (j + 1)).map (KSym.enc (symOf b.symbols) base)) o)).trans (Adds.push _ (base + j) [.eps] o)
      rw [show 1 + p.operators + 0 + 0 = p.operators + 1 by omega] at this
      simpa [KRule.enc, KSym.enc, Sym.index] using this
    · intro r hr
      simp only [List.mem_append, List.mem_cons, List.not_mem_nil, or_false] at hr
      rcases hr with (hr | rfl) | rfl
      · exact (r2 r hr).mono (by omega) (by omega)
      · exact ⟨⟨j, rfl, by omega, by omega⟩, fun s hs => (s2 s hs).mono (by omega) (by omega)⟩
      · exact ⟨⟨j, rfl, by omega, by omega⟩, by simp [KSym.Ok]⟩
  | .rule n, b, b', ss, base, j, h, ha => by
    rw [transformPattern] at h
    obtain ⟨s, h1, h⟩ := gres_bind_ok.mp h
    simp only [Except.ok.injEq, Prod.mk.injEq] at h
    obtain ⟨rfl, rfl⟩ := h
    have hs : symOf b.symbols n = some s := by
      unfold GrammarBuilder.getSymbolByName at h1
      unfold symOf
      split at h1
      · rename_i s' r' hq; simp only [Except.ok.injEq] at h1; rw [hq, h1]; rfl
      · simp at h1
    rw [ksyms, krules, ProdPattern.operators]
    exact ⟨by simp [KSym.enc, hs], Adds.refl b, by simp [KSym.Ok, hs], by simp⟩
  | .epsilon, b, b', ss, base, j, h, ha => by
    rw [transformPattern] at h
    simp only [Except.ok.injEq, Prod.mk.injEq] at h
    obtain ⟨rfl, rfl⟩ := h
    rw [ksyms, krules, ProdPattern.operators]
    exact ⟨rfl, Adds.refl b, by simp [KSym.Ok], by simp⟩
theorem transformSeq_k (o : Nat) : ∀ (ps : List ProdPattern) (b b' : GrammarBuilder) (ss : List Sym) (base j : Nat), transformSeq o ps b = .ok (ss, b') → At b base j →
    ss = (ksymsSeq ps j).map (KSym.enc (symOf b.symbols) base) ∧ Adds b b' (ProdPattern.operatorsList ps) ((krulesSeq ps j).map (KRule.enc (symOf b.symbols) base)) ∧
    (∀ s ∈ ksymsSeq ps j, KSym.Ok (symOf b.symbols) j (j + ProdPattern.operatorsList ps) s) ∧
    (∀ r ∈ krulesSeq ps j, KRule.Ok (symOf b.symbols) j (j + ProdPattern.operatorsList ps) r)
  | [], b, b', ss, base, j, h, ha => by
    rw [transformSeq] at h
    simp only [Except.ok.injEq, Prod.mk.injEq] at h
    obtain ⟨rfl, rfl⟩ := h
    rw [ksymsSeq, krulesSeq, ProdPattern.operatorsList]
    exact ⟨rfl, Adds.refl b, by simp, by simp⟩
  | p :: ps, b, b', ss, base, j, h, ha => by
    rw [transformSeq] at h
    obtain ⟨⟨u, b1⟩, h1, h⟩ := gres_bind_ok.mp h
    obtain ⟨⟨v, b2⟩, h2, h⟩ := gres_bind_ok.mp h
    simp only [Except.ok.injEq, Prod.mk.injEq] at h
    obtain ⟨rfl, rfl⟩ := h
    obtain ⟨e1, a1, s1, r1⟩ := transformPattern_k o p b b1 u base j h1 ha
    obtain ⟨e2, a2, s2, r2⟩ := transformSeq_k o ps b1 b2 v base (j + p.operators) h2 (ha.next a1)
    rw [a1.symbols] at e2 a2 s2 r2
    subst e1 e2
    rw [ksymsSeq, krulesSeq, ProdPattern.operatorsList]
    refine ⟨by simp, by simpa using a1.trans a2, ?_, ?_⟩
    · intro s hs
      rcases List.mem_append.mp hs with hs | hs
      · exact (s1 s hs).mono (by omega) (by omega)
      · exact (s2 s hs).mono (by omega) (by omega)
    · intro s hs
      rcases List.mem_append.mp hs with hs | hs
      · exact (r1 s hs).mono (by omega) (by omega)
      · exact (r2 s hs).mono (by omega) (by omega)
theorem transformAlts_k (o i : Nat) : ∀ (ps : List ProdPattern) (b b' : GrammarBuilder) (base j : Nat), transformAlts o (base + i) ps b = .ok b' → At b base j →
    Adds b b' (ProdPattern.operatorsList ps) ((krulesAlts i ps j).map (KRule.enc (symOf b.symbols) base)) ∧
    (∀ r ∈ krulesAlts i ps j, (∃ j', r.lhs = .anon j' ∧ (j' = i ∨ (j ≤ j' ∧ j' < j + ProdPattern.operatorsList ps))) ∧
      ∀ s ∈ r.rhs, KSym.Ok (symOf b.symbols) j (j + ProdPattern.operatorsList ps) s)
  | [], b, b', base, j, h, ha => by
    rw [transformAlts] at h
    simp only [Except.ok.injEq] at h
    subst h
    rw [krulesAlts, ProdPattern.operatorsList]
    exact ⟨Adds.refl b, by simp⟩
  | p :: ps, b, b', base, j, h, ha => by
    rw [transformAlts] at h
    obtain ⟨⟨u, b1⟩, h1, h⟩ := gres_bind_ok.mp h
    obtain ⟨e1, a1, s1, r1⟩ := transformPattern_k o p b b1 u base j h1 ha
    have ap := Adds.push b1 (base + i) u o
    obtain ⟨a2, r2⟩ := transformAlts_k o i ps _ b' base (j + p.operators) h ((ha.next a1).next ap)
    rw [ap.symbols, a1.symbols] at a2 r2
    subst e1
    rw [krulesAlts, ProdPattern.operatorsList]
    refine ⟨?_, ?_⟩
    · have := (a1.trans ap).trans a2
      simpa [KRule.enc, KSym.enc, Sym.index] using this
    · intro r hr
      simp only [List.mem_append, List.mem_cons, List.not_mem_nil, or_false] at hr
      rcases hr with (hr | rfl) | hr
      · obtain ⟨⟨j', e, x, y⟩, z⟩ := r1 r hr
        exact ⟨⟨j', e, .inr ⟨by omega, by omega⟩⟩, fun s hs => (z s hs).mono (by omega) (by omega)⟩
      · exact ⟨⟨i, rfl, .inl rfl⟩, fun s hs => (s1 s hs).mono (by omega) (by omega)⟩
      · obtain ⟨⟨j', e, x⟩, z⟩ := r2 r hr
        refine ⟨⟨j', e, ?_⟩, fun s hs => (z s hs).mono (by omega) (by omega)⟩
        rcases x with x | x
        · exact .inl x
        · exact .inr ⟨by omega, by omega⟩
end

/-- name and body of a production -/
def ProdRule.key (p : ProdRule) : String × ProdPattern := (p.name, p.pattern)

/-- number of helpers of the first `i` productions -/
def before (ps : List (String × ProdPattern)) (i : Nat) : Nat := ((ps.take i).map (fun p => p.2.operators)).sum

theorem before_cons (p : String × ProdPattern) (ps : List (String × ProdPattern)) (i : Nat) : before (p :: ps) (i + 1) = p.2.operators + before ps i := by
  simp [before]

theorem before_succ {ps : List (String × ProdPattern)} {i : Nat} {p : String × ProdPattern} (h : ps[i]? = some p) : before ps (i + 1) = before ps i + p.2.operators := by
  obtain ⟨hi, rfl⟩ := List.getElem?_eq_some_iff.mp h
  unfold before
  rw [List.take_add_one, h, List.map_append, List.sum_append]
  simp only [Option.toList, List.map_cons, List.map_nil, List.sum_cons, List.sum_nil, Nat.add_zero]

theorem before_mono (ps : List (String × ProdPattern)) {i j : Nat} (h : i ≤ j) : before ps i ≤ before ps j := by
  induction j with
  | zero => have : i = 0 := by omega
            subst this; exact Nat.le_refl _
  | succ j ih =>
    rcases Nat.lt_or_ge i (j + 1) with hi | hi
    · cases hq : ps[j]? with
      | none =>
        have hl : ps.length ≤ j := List.getElem?_eq_none_iff.mp hq
        have e : before ps (j + 1) = before ps j := by
          unfold before; rw [List.take_of_length_le hl, List.take_of_length_le (by omega)]
        rw [e]; exact ih (by omega)
      | some p => rw [before_succ hq]; have := ih (by omega); omega
    · have : i = j + 1 := by omega
      subst this; exact Nat.le_refl _

/-- a helper number belongs to one production -/
theorem before_unique {ps : List (String × ProdPattern)} {i i' j j' : Nat} {p p' : String × ProdPattern} (h : ps[i]? = some p) (h' : ps[i']? = some p') (hj : j < p.2.operators)
    (hj' : j' < p'.2.operators) (e : before ps i + j = before ps i' + j') : i = i' ∧ j = j' := by
  have a := before_succ h
  have a' := before_succ h'
  have : i = i' := by
    rcases Nat.lt_trichotomy i i' with hl | hl | hl
    · have := before_mono ps (show i + 1 ≤ i' by omega); omega
    · exact hl
    · have := before_mono ps (show i' + 1 ≤ i by omega); omega
  subst this
  exact ⟨rfl, by omega⟩

/-- all rules are known by name and helpers are those of the production -/
def KBlockOk (so : String → Option Sym) (p : String × ProdPattern) : Prop :=
  (∃ A, so p.1 = some (.nt A)) ∧ (∀ s ∈ ksyms p.2 0, KSym.Ok so 0 p.2.operators s) ∧ ∀ r ∈ krules p.2 0, KRule.Ok so 0 p.2.operators r

theorem addProductionRule_k {b b' : GrammarBuilder} {o : Nat} {r : ProdRule} {base : Nat} (h : b.addProductionRule o r = .ok b') (ha : At b base 0) :
    Adds b b' r.pattern.operators ((kblock r.key).map (KRule.enc (symOf b.symbols) base)) ∧ KBlockOk (symOf b.symbols) r.key := by
  unfold GrammarBuilder.addProductionRule at h
  obtain ⟨s, h1, h⟩ := gres_bind_ok.mp h
  obtain ⟨⟨u, b1⟩, h2, h⟩ := gres_bind_ok.mp h
  have hs : symOf b.symbols r.name = some s := by
    unfold GrammarBuilder.getSymbolByName at h1
    unfold symOf
    split at h1
    · rename_i s' r' hq; simp only [Except.ok.injEq] at h1; rw [hq, h1]; rfl
    · simp at h1
  obtain ⟨e1, a1, s1, r1⟩ := transformPattern_k o r.pattern b b1 u base 0 h2 ha
  simp only [Nat.zero_add] at s1 r1
  simp only at h
  cases s with
  | nt A =>
    simp only [Except.ok.injEq] at h
    subst h e1
    refine ⟨?_, ⟨A, hs⟩, s1, r1⟩
    have := a1.trans (Adds.push b1 A ((ksyms r.pattern 0).map (KSym.enc (symOf b.symbols) base)) o)
    simpa [kblock, ProdRule.key, KRule.enc, KSym.enc, hs, Sym.index] using this
  | eps => simp at h
  | eof => simp at h
  | t a => simp at h

theorem addProductionRules_k {base : Nat} : ∀ (rs : List ProdRule) (i : Nat) (b b' : GrammarBuilder), GrammarBuilder.addProductionRules i rs b = .ok b' → At b base 0 →
    b'.symbols = b.symbols ∧ b'.rules.map Rule.core = b.rules.map Rule.core ++
      ((rs.map ProdRule.key).zipIdx.flatMap (fun x => (kblock x.1).map (KRule.enc (symOf b.symbols) (base + before (rs.map ProdRule.key) x.2)))) ∧
    (∀ r ∈ rs, KBlockOk (symOf b.symbols) r.key) := by
  intro rs
  induction rs generalizing base with
  | nil => intro i b b' h _; simp only [GrammarBuilder.addProductionRules, Except.ok.injEq] at h; subst h; simp
  | cons r rs ih =>
    intro i b b' h ha
    rw [GrammarBuilder.addProductionRules] at h
    obtain ⟨b1, h1, h⟩ := gres_bind_ok.mp h
    obtain ⟨a1, k1⟩ := addProductionRule_k h1 ha
    have ha1 : At b1 (base + r.pattern.operators) 0 := by
      have := ha.next a1
      unfold At at *; omega
    obtain ⟨s2, r2, k2⟩ := ih (i + 1) b1 b' h ha1
    rw [a1.symbols] at s2 r2 k2
    refine ⟨s2, ?_, ?_⟩
    · rw [r2, a1.rules, List.append_assoc]
      congr 1
      rw [List.map_cons, List.zipIdx_cons, List.flatMap_cons, List.zipIdx_succ, List.flatMap_map]
      congr 1
      refine List.flatMap_congr fun x _ => ?_
      show _ = (kblock x.1).map (KRule.enc (symOf b.symbols) (base + before (r.key :: rs.map ProdRule.key) (x.2 + 1)))
      rw [before_cons, Nat.add_assoc]; rfl
    · intro r' hr'
      rcases List.mem_cons.mp hr' with rfl | hr'
      · exact k1
      · exact k2 r' hr'

/-- the rules of a built grammar, production by production -/
theorem fromRuleSet_k {rs : RuleSet} {g : Grammar} (h : Grammar.fromRuleSet rs = .ok g) : ∃ base,
    (∀ n s, resolve rs n = some s → s.index < base) ∧ NoClash rs ∧ resolve rs rs.entry = some g.entry ∧
    g.rules.map Rule.core = (rs.prods.map ProdRule.key).zipIdx.flatMap (fun x => (kblock x.1).map (KRule.enc (resolve rs) (base + before (rs.prods.map ProdRule.key) x.2))) ∧
    (∀ r ∈ rs.prods, KBlockOk (resolve rs) r.key) := by
  unfold Grammar.fromRuleSet at h
  obtain ⟨b, h0, h⟩ := gres_bind_ok.mp h
  have hb := fromRuleSet_ok h0
  unfold GrammarBuilder.build at h
  obtain ⟨b', h1, h⟩ := gres_bind_ok.mp h
  obtain ⟨s, h2, h⟩ := gres_bind_ok.mp h
  obtain ⟨e1, e2, e3⟩ := addProductionRules_k (base := b.maxSymbol + 1) rs.prods 0 b b' h1 (by unfold At; rw [hb.temp]; omega)
  have hso : symOf b.symbols = resolve rs := funext hb.symOf
  rw [hso] at e2 e3
  refine ⟨b.maxSymbol + 1, fun n s hn => ?_, hb.noClash, ?_, ?_, e3⟩
  · have := hb.max n s (by rw [hb.symOf, hn]); omega
  · have hs : symOf b'.symbols rs.entry = some s := by
      unfold GrammarBuilder.getSymbolByName at h2
      unfold symOf
      split at h2
      · rename_i s' r' hq; simp only [Except.ok.injEq] at h2; rw [hq, h2]; rfl
      · simp at h2
    rw [e1, hb.symOf] at hs
    rw [hs]
    split at h
    · simp at h
    · simp only [Except.ok.injEq] at h; rw [← h]
  · rw [hb.rules] at e2
    split at h
    · simp at h
    · simp only [Except.ok.injEq] at h; rw [← h, e2]; rfl

/-- a one-to-one relation between numbers is part of a one-to-one function -/
theorem extend_relation (R : Nat → Nat → Prop) (M : Nat) (hf : ∀ a b c, R a b → R a c → b = c) (hi : ∀ a b c, R a c → R b c → a = b) (hb : ∀ a b, R a b → b < M) :
    ∃ φ : Nat → Nat, (∀ a b, φ a = φ b → a = b) ∧ ∀ a b, R a b → φ a = b := by
  classical
  have key : ∀ a b, R a b → (if h : ∃ c, R a c then h.choose else M + a) = b := by
    intro a b h
    rw [dif_pos ⟨b, h⟩]
    exact hf a _ _ (⟨b, h⟩ : ∃ c, R a c).choose_spec h
  refine ⟨fun a => if h : ∃ c, R a c then h.choose else M + a, fun a b e => ?_, key⟩
  by_cases ha : ∃ c, R a c
  · obtain ⟨c, hc⟩ := ha
    by_cases hb' : ∃ d, R b d
    · obtain ⟨d, hd⟩ := hb'
      simp only at e
      rw [key a c hc, key b d hd] at e
      subst e
      exact hi a b c hc hd
    · simp only at e
      rw [key a c hc, dif_neg hb'] at e
      have := hb a c hc; omega
  · by_cases hb' : ∃ d, R b d
    · obtain ⟨d, hd⟩ := hb'
      simp only at e
      rw [key b d hd, dif_neg ha] at e
      have := hb b d hd; omega
    · simp only at e
      rw [dif_neg ha, dif_neg hb'] at e
      omega

/-- a permutation of a list, seen on the positions -/
theorem perm_positions {α : Type} {l l' : List α} (h : l.Perm l') : ∃ σ : Nat → Nat, (l.zipIdx.map (fun x => (x.1, σ x.2))).Perm l'.zipIdx := by
  induction h with
  | nil => exact ⟨id, by simp⟩
  | @cons a l l' _ ih =>
    obtain ⟨σ, hσ⟩ := ih
    refine ⟨fun i => match i with | 0 => 0 | i + 1 => σ i + 1, ?_⟩
    rw [List.zipIdx_cons, List.zipIdx_cons, List.map_cons, List.zipIdx_succ, List.zipIdx_succ, List.map_map]
    refine List.Perm.cons _ ?_
    have := hσ.map (fun x => (x.1, x.2 + 1))
    rw [List.map_map] at this
    exact this
  | swap a b l =>
    refine ⟨fun i => match i with | 0 => 1 | 1 => 0 | i => i, ?_⟩
    simp only [List.zipIdx_cons, List.map_cons]
    have e : (l.zipIdx (0 + 1 + 1)).map (fun x => (x.1, (match x.2 with | 0 => 1 | 1 => 0 | i => i : Nat))) = l.zipIdx (0 + 1 + 1) := by
      conv_rhs => rw [← List.map_id (l.zipIdx (0 + 1 + 1))]
      refine List.map_congr_left fun x hx => ?_
      have := List.le_snd_of_mem_zipIdx hx
      obtain ⟨x, i⟩ := x
      match i with
      | 0 => simp at this
      | 1 => simp at this
      | i + 2 => rfl
    rw [e]
    exact List.Perm.swap _ _ _
  | trans _ _ ih1 ih2 =>
    obtain ⟨σ, h1⟩ := ih1
    obtain ⟨σ', h2⟩ := ih2
    refine ⟨fun i => σ' (σ i), ?_⟩
    have := h1.map (fun x => (x.1, σ' x.2))
    rw [List.map_map] at this
    exact this.trans h2

/-- the positions of a permutation: one-to-one, and the same elements -/
theorem positions_spec {α : Type} {l l' : List α} {σ : Nat → Nat} (h : (l.zipIdx.map (fun x => (x.1, σ x.2))).Perm l'.zipIdx) :
    (∀ (i : Nat) (x : α), l[i]? = some x → l'[σ i]? = some x) ∧ (∀ (j : Nat) (x : α), l'[j]? = some x → ∃ i, l[i]? = some x ∧ σ i = j) ∧
    (∀ i i', i < l.length → i' < l.length → σ i = σ i' → i = i') := by
  refine ⟨fun i x hx => ?_, fun j x hx => ?_, fun i i' hi hi' e => ?_⟩
  · have h1 : (x, i) ∈ l.zipIdx := List.mem_zipIdx_iff_getElem?.mpr hx
    exact List.mem_zipIdx_iff_getElem?.mp (h.mem_iff.mp (List.mem_map_of_mem (f := fun x => (x.1, σ x.2)) h1))
  · have h1 : (x, j) ∈ l'.zipIdx := List.mem_zipIdx_iff_getElem?.mpr hx
    obtain ⟨⟨y, i⟩, h2, h3⟩ := List.mem_map.mp (h.mem_iff.mpr h1)
    simp only [Prod.mk.injEq] at h3
    obtain ⟨rfl, h3⟩ := h3
    exact ⟨i, List.mem_zipIdx_iff_getElem?.mp h2, h3⟩
  · have hn : (l'.zipIdx.map (·.2)).Nodup := by rw [List.zipIdx_map_snd]; exact List.nodup_range'
    have h2 := (h.map (·.2)).nodup_iff.mpr hn
    rw [List.map_map] at h2
    have h3 : (l.zipIdx.map ((fun x : α × Nat => x.2) ∘ fun x => (x.1, σ x.2))) = (List.range' 0 l.length).map σ := by
      rw [← List.zipIdx_map_snd 0 l, List.map_map]; rfl
    rw [h3] at h2
    exact List.inj_on_of_nodup_map h2 (by simp [List.mem_range'_1]; omega) (by simp [List.mem_range'_1]; omega) e

mutual
theorem rename_operators (ρ : String → String) : ∀ p : ProdPattern, (p.rename ρ).operators = p.operators
  | .sequence ps => by rw [ProdPattern.rename, ProdPattern.operators, ProdPattern.operators, renameList_operators ρ ps]
  | .alternative ps => by rw [ProdPattern.rename, ProdPattern.operators, ProdPattern.operators, renameList_operators ρ ps]
  | .oneOrMany p => by rw [ProdPattern.rename, ProdPattern.operators, ProdPattern.operators, rename_operators ρ p]
  | .zeroOrMany p => by rw [ProdPattern.rename, ProdPattern.operators, ProdPattern.operators, rename_operators ρ p]
  | .optional p => by rw [ProdPattern.rename, ProdPattern.operators, ProdPattern.operators, rename_operators ρ p]
  | .rule n => by rw [ProdPattern.rename, ProdPattern.operators, ProdPattern.operators]
  | .epsilon => by rw [ProdPattern.rename]
theorem renameList_operators (ρ : String → String) : ∀ ps : List ProdPattern, ProdPattern.operatorsList (ProdPattern.renameList ρ ps) = ProdPattern.operatorsList ps
  | [] => by rw [ProdPattern.renameList]
  | p :: ps => by rw [ProdPattern.renameList, ProdPattern.operatorsList, ProdPattern.operatorsList, rename_operators ρ p, renameList_operators ρ ps]
end

/-- other names -/
def KSym.rename (ρ : String → String) : KSym → KSym
  | .eps => .eps
  | .name n => .name (ρ n)
  | .anon j => .anon j

def KRule.rename (ρ : String → String) (r : KRule) : KRule := ⟨r.lhs.rename ρ, r.rhs.map (KSym.rename ρ)⟩

mutual
theorem ksyms_rename (ρ : String → String) : ∀ (p : ProdPattern) (j : Nat), ksyms (p.rename ρ) j = (ksyms p j).map (KSym.rename ρ)
  | .sequence ps, j => by rw [ProdPattern.rename, ksyms, ksyms, ksymsSeq_rename ρ ps]
  | .alternative ps, j => by rw [ProdPattern.rename, ksyms, ksyms]; rfl
  | .oneOrMany p, j => by rw [ProdPattern.rename, ksyms, ksyms]; rfl
  | .zeroOrMany p, j => by rw [ProdPattern.rename, ksyms, ksyms]; rfl
  | .optional p, j => by rw [ProdPattern.rename, ksyms, ksyms]; rfl
  | .rule n, j => by rw [ProdPattern.rename, ksyms, ksyms]; rfl
  | .epsilon, j => by rw [ProdPattern.rename, ksyms]; rfl
theorem ksymsSeq_rename (ρ : String → String) : ∀ (ps : List ProdPattern) (j : Nat), ksymsSeq (ProdPattern.renameList ρ ps) j = (ksymsSeq ps j).map (KSym.rename ρ)
  | [], j => by rw [ProdPattern.renameList, ksymsSeq]; rfl
  | p :: ps, j => by rw [ProdPattern.renameList, ksymsSeq, ksymsSeq, ksyms_rename ρ p, rename_operators, ksymsSeq_rename ρ ps, List.map_append]
end

mutual
theorem krules_rename (ρ : String → String) : ∀ (p : ProdPattern) (j : Nat), krules (p.rename ρ) j = (krules p j).map (KRule.rename ρ)
  | .sequence ps, j => by rw [ProdPattern.rename, krules, krules, krulesSeq_rename ρ ps]
  | .alternative ps, j => by rw [ProdPattern.rename, krules, krules, krulesAlts_rename ρ j ps]
  | .oneOrMany p, j => by rw [ProdPattern.rename, krules, krules, krules_rename ρ p, ksyms_rename]; simp [KRule.rename, KSym.rename]
  | .zeroOrMany p, j => by rw [ProdPattern.rename, krules, krules, krules_rename ρ p, ksyms_rename]; simp [KRule.rename, KSym.rename]
  | .optional p, j => by rw [ProdPattern.rename, krules, krules, krules_rename ρ p, ksyms_rename]; simp [KRule.rename, KSym.rename]
  | .rule n, j => by rw [ProdPattern.rename, krules, krules]; rfl
  | .epsilon, j => by rw [ProdPattern.rename, krules]; rfl
theorem krulesSeq_rename (ρ : String → String) : ∀ (ps : List ProdPattern) (j : Nat), krulesSeq (ProdPattern.renameList ρ ps) j = (krulesSeq ps j).map (KRule.rename ρ)
  | [], j => by rw [ProdPattern.renameList, krulesSeq]; rfl
  | p :: ps, j => by rw [ProdPattern.renameList, krulesSeq, krulesSeq, krules_rename ρ p, rename_operators, krulesSeq_rename ρ ps, List.map_append]
theorem krulesAlts_rename (ρ : String → String) (i : Nat) : ∀ (ps : List ProdPattern) (j : Nat), krulesAlts i (ProdPattern.renameList ρ ps) j = (krulesAlts i ps j).map (KRule.rename ρ)
  | [], j => by rw [ProdPattern.renameList, krulesAlts]; rfl
  | p :: ps, j => by
    rw [ProdPattern.renameList, krulesAlts, krulesAlts, krules_rename ρ p, ksyms_rename, rename_operators, krulesAlts_rename ρ i ps]
    simp [KRule.rename, KSym.rename]
end

/-- other names for a production -/
def renameKey (ρ : String → String) (p : String × ProdPattern) : String × ProdPattern := (ρ p.1, p.2.rename ρ)

theorem kblock_rename (ρ : String → String) (p : String × ProdPattern) : kblock (renameKey ρ p) = (kblock p).map (KRule.rename ρ) := by
  unfold kblock renameKey
  rw [krules_rename, ksyms_rename]
  simp [KRule.rename, KSym.rename]

end Verif
