import Verif.Proofs.Report
import Verif.Proofs.GenerateFile
import Verif.Proofs.LapexLexer
import Verif.Props.Generate

/-! # What appears in reports comes from the grammar file -/

set_option autoImplicit false

namespace Verif

/-! ## Names -/

theorem tie_ne {fuel : Nat} {rules : List TokenRule} {e : PrecedenceError} (h : generateLexer fuel rules = .ok (.error e)) : e.rules ≠ [] := by
  have hres : ∀ acc x, resolvePrecedence rules acc = .ok (.error x) → x.rules ≠ [] := by
    intro acc x hx
    unfold resolvePrecedence at hx
    split at hx
    · cases hx
    · dsimp only at hx
      split at hx
      · cases hx
      · split at hx
        · rename_i hl
          cases hx
          intro h0
          dsimp only at h0
          rw [h0] at hl
          simp at hl
        · split at hx <;> cases hx
  have hst : ∀ (states : List (AutomatonState (List Nat))) idx dfa mapping x, applyPrecedenceStates rules idx states dfa mapping = .ok (.error x) → x.rules ≠ [] := by
    intro states
    induction states with
    | nil => intro idx dfa mapping x hx; cases hx
    | cons s states ih =>
      intro idx dfa mapping x hx
      cases s with
      | accepting acc =>
        unfold applyPrecedenceStates at hx
        split at hx
        · cases hx
        · rename_i hr; cases hx; exact hres _ _ hr
        · exact ih _ _ _ _ hx
      | intermediate k => exact ih _ _ _ _ hx
  unfold generateLexer at h
  obtain ⟨⟨start, nfa⟩, h1, h⟩ := res_bind_ok.mp h
  obtain ⟨d, h2, h⟩ := res_bind_ok.mp h
  obtain ⟨x, h3, h⟩ := res_bind_ok.mp h
  cases x with
  | ok d => cases h
  | error e' =>
    cases h
    unfold applyPrecedenceToDfa at h3
    split at h3
    · cases h3
    · rename_i hs; cases h3; exact hst _ _ _ _ _ hs
    · split at h3 <;> cases h3

/-- a name that can be shown -/
def ShowName (s : List Char) : Prop := NoEscape s ∧ '\n' ∉ s

theorem ShowName.append {a b : List Char} (ha : ShowName a) (hb : ShowName b) : ShowName (a ++ b) :=
  ⟨fun h => (List.mem_append.mp h).elim ha.1 hb.1, fun h => (List.mem_append.mp h).elim ha.2 hb.2⟩

theorem ShowName.intercalate {l : List (List Char)} (h : ∀ a ∈ l, ShowName a) : ShowName (List.intercalate [' '] l) := by
  induction l with
  | nil => exact ⟨by simp [NoEscape, List.intercalate], by simp [List.intercalate]⟩
  | cons a l ih =>
    have ha := h a List.mem_cons_self
    cases l with
    | nil => simpa [List.intercalate] using ha
    | cons b l =>
      have e : List.intercalate [' '] (a :: b :: l) = a ++ [' '] ++ List.intercalate [' '] (b :: l) := by simp [List.intercalate, List.intersperse]
      rw [e]
      exact (ha.append ⟨by simp [NoEscape], by simp⟩).append (ih fun x hx => h x (List.mem_cons_of_mem _ hx))

section
variable {rs : RuleSet} {g : Grammar} (hg : Grammar.fromRuleSet rs = .ok g) (hT : rs.tokens.length ≤ 65536) (hP : rs.prods.length ≤ 65536)
  (ht : ∀ n ∈ rs.tokens, ShowName n.toList) (hp : ∀ p ∈ rs.prods, ShowName p.name.toList)
include hg hT ht

theorem token_show {a : Nat} {name : String} (h : (Sym.t a, name) ∈ g.tokens) : ShowName name.toList := by
  obtain ⟨base, pats, ok⟩ := grammarOk hg
  have h1 := mem_mget? ok.tokS h
  obtain ⟨k, hk, e⟩ := (ok.tokK (.t a)).mp (by rw [h1]; rfl)
  rw [Nat.mod_eq_of_lt (show k < u16Size from Nat.lt_of_lt_of_le hk hT)] at e
  cases e
  rw [ok.tokN hT _ hk] at h1
  exact ht _ (List.mem_of_getElem? h1)

include hP hp

omit hT ht in
theorem prod_show {A : Nat} {name : String} (h : (Sym.nt A, name) ∈ g.productions) : ShowName name.toList := by
  obtain ⟨base, pats, ok⟩ := grammarOk hg
  have h1 := (ok.prodN hP name A).mp (mem_mget? ok.prodS h)
  obtain ⟨p, h2, rfl⟩ := resolve_prod h1
  exact hp p h2

theorem symbol_show {X : Sym} {s : List Char} (h : NamesSymbol g X s) : ShowName s := by
  have hd : ∀ n, ShowName (['('] ++ decimal n ++ [')']) := fun n =>
    (ShowName.append ⟨by simp [NoEscape], by simp⟩ (decimal_noEscape n)).append ⟨by simp [NoEscape], by simp⟩
  cases h with
  | token h => simpa using (token_show hg hT ht h).append (hd _)
  | production h => simpa using (prod_show hg hP hp h).append (hd _)
  | @helper A h => exact (ShowName.append ⟨by simp [NoEscape], by simp⟩ (decimal_noEscape A)).append ⟨by simp [NoEscape], by simp⟩
  | eps => exact ⟨by simp [NoEscape], by simp⟩
  | eof => exact ⟨by simp [NoEscape], by simp⟩

theorem string_show {ss : List Sym} {s : List Char} (h : NamesString g ss s) : ShowName s := by
  obtain ⟨names, h1, rfl⟩ := h
  refine .intercalate fun a ha => ?_
  obtain ⟨X, _, hX⟩ := forall₂_right h1 ha
  exact symbol_show hg hT hP ht hp hX

theorem item_show {r : Rule} {dot : Nat} {s : List Char} (h : ShowsItem g r dot s) : ShowName s := by
  obtain ⟨lhs, pre, post, h1, h2, h3, rfl⟩ := h
  exact ((((symbol_show hg hT hP ht hp h1).append ⟨by simp [NoEscape], by simp⟩).append (string_show hg hT hP ht hp h2)).append ⟨by simp [NoEscape], by simp⟩).append
    (string_show hg hT hP ht hp h3)

end

/-! ## Quotes -/

theorem takeBytes_sub {s r : List Char} {n : Nat} (h : takeBytes s n = some r) : ∀ c ∈ r, c ∈ s := by
  induction s generalizing n r with
  | nil =>
    unfold takeBytes at h
    split at h <;> simp_all
  | cons d s ih =>
    cases n with
    | zero => simp [takeBytes] at h; subst h; simp
    | succ n =>
      unfold takeBytes at h
      split at h
      · simp only [Option.map_eq_some_iff] at h
        obtain ⟨r', h1, rfl⟩ := h
        intro c hc
        rcases List.mem_cons.mp hc with rfl | hc
        · exact List.mem_cons_self
        · exact List.mem_cons_of_mem _ (ih h1 c hc)
      · cases h

theorem dropBytes_sub {s r : List Char} {n : Nat} (h : dropBytes s n = some r) : ∀ c ∈ r, c ∈ s := by
  induction s generalizing n r with
  | nil =>
    unfold dropBytes at h
    split at h <;> simp_all
  | cons d s ih =>
    cases n with
    | zero => simp [dropBytes] at h; subst h; simp
    | succ n =>
      unfold dropBytes at h
      split at h
      · exact fun c hc => List.mem_cons_of_mem _ (ih h c hc)
      · cases h

theorem substring_sub {span : SourceSpan} {text q : List Char} (h : span.substring text = .ok (some q)) : ∀ c ∈ q, c ∈ text := by
  unfold SourceSpan.substring at h
  obtain ⟨a, _, h⟩ := res_bind_ok.mp h
  cases a with
  | none => cases h
  | some a =>
    obtain ⟨b, _, h⟩ := res_bind_ok.mp h
    cases b with
    | none => cases h
    | some b =>
      obtain ⟨s, h1, h⟩ := res_bind_ok.mp h
      cases h
      unfold byteSlice at h1
      split at h1
      · split at h1
        · rename_i r hr
          cases h1
          obtain ⟨d, h2, h3⟩ := Option.bind_eq_some_iff.mp hr
          exact fun c hc => dropBytes_sub h2 c (takeBytes_sub h3 c hc)
        · cases h1
      · cases h1

/-! ## Reports of a run -/

theorem report_printable {rs : RuleSet} {g : Grammar} (hg : Grammar.fromRuleSet rs = .ok g) (hT : rs.tokens.length ≤ 65536) (hP : rs.prods.length ≤ 65536)
    (ht : ∀ n ∈ rs.tokens, ShowName n.toList) (hp : ∀ p ∈ rs.prods, ShowName p.name.toList) {path text reason : List Char} (hpath : NoEscape path) (htext : NoEscape text)
    {prods : List (Spanned ProdRule)} {c : Conflict} {r : Report} (h : TellsConflict path text prods g c r)
    (hc : ∀ q its, c = .reduceReduce q its → its ≠ []) : r.Printable reason := by
  have key : ∀ it x, TellsItem path text prods g it x → NoEscape x.1.file ∧ NoEscape x.1.text ∧ ShowName x.2 := by
    rintro it x ⟨i, r, p, _, _, _, hl, _, hs⟩
    exact ⟨by rw [hl.file]; exact hpath, fun hm => htext (substring_sub hl.text _ hm), item_show hg hT hP ht hp hs⟩
  have two : ∀ q name l itext, ShowName name → NoEscape l.file ∧ NoEscape l.text ∧ ShowName itext → (Report.shiftReduce q name l itext).Printable reason := by
    intro q name l itext hn ⟨h1, h2, h3⟩
    exact ⟨trivial, by simp only [Report.places, List.mem_cons, List.not_mem_nil, or_false]; rintro x (rfl | rfl); exacts [hn, h3],
      by simp only [Report.places, List.mem_cons, List.not_mem_nil, or_false]; rintro x (rfl | rfl) <;> exact h1,
      by simp only [Report.places, List.mem_cons, List.not_mem_nil, or_false]; rintro x (rfl | rfl) <;> exact h2, fun _ h => by cases h⟩
  cases h with
  | shiftToken h1 h2 => exact two _ _ _ _ (token_show hg hT ht h1) (key _ _ h2)
  | shiftOther _ h1 h2 => exact two _ _ _ _ (symbol_show hg hT hP ht hp h1) (key _ _ h2)
  | reduces h1 =>
    have all : ∀ x ∈ _, _ := fun x hx => let ⟨it, _, hi⟩ := forall₂_right h1 hx; key it x hi
    refine ⟨?_, fun x hx => (all x hx).2.2, fun x hx => (all x hx).1, fun x hx => (all x hx).2.1, fun _ h => by cases h⟩
    rintro rfl
    cases h1
    exact hc _ _ rfl rfl

theorem token_printable {path text reason : List Char} (hpath : NoEscape path) (htext : NoEscape text) {tokens : List (Spanned TokenRule)}
    (ht : ∀ r ∈ tokens, ShowName r.inner.name.toList) {js : List Nat} {xs : List (Location × List Char)} (h : List.Forall₂ (TellsToken path text tokens) js xs) (hne : js ≠ []) :
    (Report.precedence xs).Printable reason := by
  have all : ∀ x ∈ xs, NoEscape x.1.file ∧ NoEscape x.1.text ∧ ShowName x.2 := by
    intro x hx
    obtain ⟨j, _, r, h1, hl, h2⟩ := forall₂_right h hx
    exact ⟨by rw [hl.file]; exact hpath, fun hm => htext (substring_sub hl.text _ hm), by rw [h2]; exact ht r (List.mem_of_getElem? h1)⟩
  refine ⟨?_, fun x hx => (all x hx).2.2, fun x hx => (all x hx).1, fun x hx => (all x hx).2.1, fun _ h => by cases h⟩
  rintro rfl
  cases h
  exact hne rfl

/-! ## Names in lapex files -/

theorem textTokens_lexemes {text : List Char} {ts : List (Nat × List Char)} (h : TextTokens lapexTokens text ts) : ∀ x ∈ ts, isLexeme x.1 x.2 = true := by
  induction h with
  | done => intro x hx; cases hx
  | token _ _ hb _ _ ih =>
    intro x hx
    rcases List.mem_cons.mp hx with rfl | hx
    · obtain ⟨r, p, h1, h2, _⟩ := hb
      exact (lexeme_iff h1).mp h2
    · exact ih x hx

theorem located_lexemes {nl ws : Nat} {ts : List (Nat × List Char)} {pos : SourcePos} : ∀ x ∈ located nl ws pos ts, (x.1, x.2.text) ∈ ts := by
  induction ts generalizing pos with
  | nil => intro x hx; cases hx
  | cons y ts ih =>
    intro x hx
    unfold located at hx
    split at hx
    · exact List.mem_cons_of_mem _ (ih x hx)
    · rcases List.mem_cons.mp hx with rfl | hx
      · exact List.mem_cons_self
      · exact List.mem_cons_of_mem _ (ih x hx)

/-- the name of a rule as written -/
def RawRule.nameData : RawRule → TokenData
  | .entry n => n
  | .prod n _ _ => n
  | .token n _ _ => n

theorem fileText_names {w : Tokens} {rs : List (Spanned RawRule)} (h : FileText joinSeq joinAlt w rs) : ∀ r ∈ rs, (Lx.ident, r.inner.nameData) ∈ w := by
  have one : ∀ {w r}, RuleText joinSeq joinAlt w r → (Lx.ident, r.inner.nameData) ∈ w := by
    intro w r h
    cases h <;> simp [RawRule.nameData]
  induction h with
  | one h => intro r hr; simp at hr; subst hr; exact one h
  | more h _ ih =>
    intro r hr
    rcases List.mem_cons.mp hr with rfl | hr
    · exact List.mem_append_left _ (one h)
    · exact List.mem_append_right _ (ih r hr)

/-- names of rules in a lapex file are names -/
theorem fileMeans_names {syn : List Char → Option Hir} {text : List Char} {ts : List (Nat × List Char)} {out : SpannedRules} (h1 : TextTokens lapexTokens text ts)
    (h2 : FileMeans syn (fileTokens ts) out) : (∀ r ∈ out.tokens, isName r.inner.name.toList = true) ∧ ∀ r ∈ out.prods, isName r.inner.name.toList = true := by
  obtain ⟨rs, xs, f1, f2, f3, f4, f5⟩ := h2
  have key : ∀ raw ∈ rs, isName raw.inner.nameData.name.toList = true := by
    intro raw hraw
    have := textTokens_lexemes h1 _ (located_lexemes _ (fileText_names f1 raw hraw))
    simpa [isLexeme, fixedLexeme, TokenData.name] using this
  constructor
  · intro r hr
    rw [f4, List.mem_reverse] at hr
    obtain ⟨x, hx, he⟩ := List.mem_filterMap.mp hr
    split at he
    · rename_i q hq
      cases he
      obtain ⟨raw, hraw, _, hm⟩ := forall₂_right f2 hx
      have hk := key raw hraw
      rw [hq] at hm
      generalize raw.inner = ri at hm hk
      cases hm <;> exact hk
    · cases he
  · intro r hr
    rw [f5, List.mem_reverse] at hr
    obtain ⟨x, hx, he⟩ := List.mem_filterMap.mp hr
    split at he
    · rename_i q hq
      cases he
      obtain ⟨raw, hraw, _, hm⟩ := forall₂_right f2 hx
      have hk := key raw hraw
      rw [hq] at hm
      generalize raw.inner = ri at hm hk
      cases hm; exact hk
    · cases he

theorem showName_of_isName {s : List Char} (h : isName s = true) : ShowName s := by
  have hall : ∀ c ∈ s, isWordChar c = true := by
    cases s with
    | nil => intro c hc; cases hc
    | cons d s =>
      simp only [isName, Bool.and_eq_true, List.all_eq_true] at h
      intro c hc
      rcases List.mem_cons.mp hc with rfl | hc
      · simp [isWordChar, h.1]
      · exact h.2 c hc
  constructor
  · intro hm
    have := hall _ hm
    revert this; decide
  · intro hm
    have := hall _ hm
    revert this; decide

end Verif
