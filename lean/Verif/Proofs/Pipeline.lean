import Verif.Spec.Pipeline
import Verif.Props.Cpp
import Verif.Props.LR1

/-! # Lemmas: a lexer feeding a parser -/

set_option autoImplicit false

namespace Verif

variable {rules : List TokenRule} {t : LexerTables} {fuel : Nat} {skip : Nat → Bool}

theorem BestMatch.unique {w : List Char} {j j' : Nat} (h : BestMatch rules w j) (h' : BestMatch rules w j') : j = j' := by
  obtain ⟨r, p, h1, h2, h3, h4⟩ := h
  obtain ⟨r', p', h1', h2', h3', h4'⟩ := h'
  by_contra hne
  obtain ⟨q, a1, a2⟩ := h4 j' r' h1' h2' (fun e => hne e.symm)
  obtain ⟨q', b1, b2⟩ := h4' j r h1 h2 hne
  rw [h3'] at a1; rw [h3] at b1
  cases a1; cases b1
  omega

/-- what a token result of the lexer means -/
theorem next_token_spec (h : generateLexer fuel rules = .ok (.ok t)) (hne : ∀ r ∈ rules, r.NoEmptySeq) {src : List Char} {l l' : Lexer} {j : Nat} (hi : l.Inv src)
    (hn : l.next t = .ok (.token j, l')) :
    ∃ m, l.rest = m ++ l'.rest ∧ l'.slice = .ok m ∧ nul ∉ m ∧ BestMatch rules m j ∧
      (∀ p suf, l.rest = p ++ suf → nul ∉ p → Viable rules p → p.length ≤ m.length) ∧ ¬ AtEnd l.rest ∧ l'.Inv src := by
  have ht := generateLexer_ok h
  have hend : ¬ AtEnd l.rest := by
    intro he
    obtain ⟨l2, h2⟩ := (C12_eof_iff h l).mpr he
    rw [hn] at h2; cases h2
  obtain ⟨m, rest', q, res, l2, g1, g2, g3, g4, g5, g6, g7, g8, g9, g10, g11, g12⟩ := next_slice ht hi
  rw [hn] at g7
  cases g7
  refine ⟨m, by rw [g8, g1], g11, g2, ?_, fun p suf he hp hv => next_longest ht hne g3 g5 (by rw [← g1, he]) hp hv, hend, g12⟩
  obtain ⟨r, p, a1, a2, a3, a4⟩ := ht.accepting g3 (stop_token g6)
  exact ⟨r, p, a1, a2, a3, fun j' r' b1 b2 => a4 j' r' b1 (by rw [TokenRule.live_eq (hne r' (List.mem_of_getElem? b1))]; exact b2)⟩

/-- and the other way round -/
theorem next_token_of (h : generateLexer fuel rules = .ok (.ok t)) (hne : ∀ r ∈ rules, r.NoEmptySeq ∧ r.Useful) {src : List Char} {l : Lexer} {j : Nat} (hi : l.Inv src)
    {m rest : List Char} (hr : l.rest = m ++ rest) (hend : ¬ AtEnd l.rest) (hnul : nul ∉ m) (hb : BestMatch rules m j)
    (hmax : ∀ p suf, l.rest = p ++ suf → nul ∉ p → Viable rules p → p.length ≤ m.length) :
    ∃ l', l.next t = .ok (.token j, l') ∧ l'.rest = rest ∧ l'.slice = .ok m ∧ l'.Inv src := by
  have hsome : SomeMatch rules m := by
    obtain ⟨r, p, h1, h2, _⟩ := hb
    exact ⟨r, List.mem_of_getElem? h1, h2⟩
  have hv : Viable rules m := ⟨[], by simpa using hsome⟩
  obtain ⟨res, l', hn, hinv⟩ := C10_next_total h l
  cases res with
  | token j' =>
    obtain ⟨m', a1, a2, a3, a4, a5, a6, a7⟩ := next_token_spec h (fun r hr => (hne r hr).1) hi hn
    have hv' : Viable rules m' := by
      obtain ⟨r, p, h1, h2, _⟩ := a4
      exact ⟨[], by simpa using ⟨r, List.mem_of_getElem? h1, h2⟩⟩
    have hlen : m.length = m'.length := Nat.le_antisymm (a5 _ _ hr hnul hv) (hmax _ _ a1 a3 hv')
    obtain ⟨rfl, hrest⟩ := List.append_inj (hr.symm.trans a1) hlen
    obtain rfl := hb.unique a4
    exact ⟨l', hn, hrest.symm, a2, a7⟩
  | eof => exact absurd ((C12_eof_iff h l).mp ⟨l', hn⟩) hend
  | invalidChar c => exact absurd rfl (hinv c)
  | unexpectedAlphabet r =>
    obtain ⟨p, rest', a1, a2, a3, a4, a5⟩ := (C10_error_iff h hne l hend).mp ⟨r, l', hn⟩
    have hlen : p.length = m.length := by
      apply Nat.le_antisymm
      · rcases a3 with rfl | a3
        · simp
        · exact hmax _ _ a1 a2 a3
      · exact a4 _ _ hr hnul hv
    obtain ⟨rfl, _⟩ := List.append_inj (a1.symm.trans hr) hlen
    exact absurd hsome a5

theorem FedBy.skipOne {l l1 : Lexer} {j : Nat} {input : Nat → Tok × List Char} (hf : FedBy t skip l input) (hn : l.next t = .ok (.token j, l1)) (hs : skip j = true) :
    FedBy t skip l1 input := by
  obtain ⟨st, h0, h1⟩ := hf
  refine ⟨fun n => if n = 0 then l1 else st n, rfl, fun n => ?_⟩
  cases n with
  | succ n => simpa using h1 (n + 1)
  | zero =>
    obtain ⟨r, s, a1, a2, a3⟩ := h1 0
    rw [h0] at a1
    refine ⟨r, s, ?_, by simpa using a2, a3⟩
    simp only [if_pos, Nat.zero_add, Nat.one_ne_zero, if_false]
    generalize st (0 + 1) = l2 at a1
    cases a1 with
    | keep b1 b2 =>
      rw [hn] at b1; cases b1
      rw [b2 j rfl] at hs; cases hs
    | skip b1 b2 b3 =>
      rw [hn] at b1; cases b1
      exact b3

theorem FedBy.keep {l l1 : Lexer} {r : LexResult} {input : Nat → Tok × List Char} (hf : FedBy t skip l input) (hn : l.next t = .ok (r, l1))
    (hs : ∀ j, r = .token j → skip j = false) : (∃ s, l1.slice = .ok s ∧ input 0 = (r.tok, s)) ∧ FedBy t skip l1 (fun n => input (n + 1)) := by
  obtain ⟨st, h0, h1⟩ := hf
  obtain ⟨r', s, a1, a2, a3⟩ := h1 0
  rw [h0] at a1
  have hst : st (0 + 1) = l1 ∧ r' = r := by
    generalize st (0 + 1) = l2 at a1
    cases a1 with
    | keep b1 b2 => rw [hn] at b1; cases b1; exact ⟨rfl, rfl⟩
    | skip b1 b2 b3 =>
      rw [hn] at b1; cases b1
      rw [hs _ rfl] at b2; cases b2
  obtain ⟨hst, rfl⟩ := hst
  refine ⟨⟨s, hst ▸ a2, a3⟩, fun n => st (n + 1), hst, fun n => h1 (n + 1)⟩

/-- the parser's token stream is determined by the lexer -/
theorem FedBy.unique {l : Lexer} {input input' : Nat → Tok × List Char} (hf : FedBy t skip l input) (hf' : FedBy t skip l input') : input = input' := by
  have det : ∀ {l r l1}, NextKept t skip l r l1 → ∀ {r' l1'}, NextKept t skip l r' l1' → r = r' ∧ l1 = l1' := by
    intro l r l1 h
    induction h with
    | keep a1 a2 =>
      intro r' l1' h'
      cases h' with
      | keep b1 b2 => rw [a1] at b1; cases b1; exact ⟨rfl, rfl⟩
      | skip b1 b2 b3 => rw [a1] at b1; cases b1; rw [a2 _ rfl] at b2; cases b2
    | skip a1 a2 _ ih =>
      intro r' l1' h'
      cases h' with
      | keep b1 b2 => rw [a1] at b1; cases b1; rw [b2 _ rfl] at a2; cases a2
      | skip b1 b2 b3 => rw [a1] at b1; cases b1; exact ih b3
  obtain ⟨st, h0, h1⟩ := hf
  obtain ⟨st', h0', h1'⟩ := hf'
  have hst : ∀ n, st n = st' n := by
    intro n
    induction n with
    | zero => rw [h0, h0']
    | succ n ih =>
      obtain ⟨r, s, a1, _⟩ := h1 n
      obtain ⟨r', s', b1, _⟩ := h1' n
      rw [ih] at a1
      exact (det a1 b1).2
  funext n
  obtain ⟨r, s, a1, a2, a3⟩ := h1 n
  obtain ⟨r', s', b1, b2, b3⟩ := h1' n
  rw [hst n] at a1
  obtain ⟨rfl, _⟩ := det a1 b1
  rw [hst (n + 1), b2] at a2
  cases a2
  rw [a3, b3]

/-- the stream made from the tokens of the text -/
theorem stream_of_tokens (h : generateLexer fuel rules = .ok (.ok t)) (hne : ∀ r ∈ rules, r.NoEmptySeq ∧ r.Useful) {src text : List Char}
    {ts : List (Nat × List Char)} (hT : TextTokens rules text ts) :
    ∀ {l : Lexer} {input : Nat → Tok × List Char}, l.Inv src → l.rest = text → FedBy t skip l input → StreamIs input (kept skip ts) := by
  induction hT with
  | done he =>
    intro l input hi hr hf
    obtain ⟨l', hn⟩ := (C12_eof_iff h l).mpr (hr ▸ he)
    obtain ⟨⟨s, _, h0⟩, _⟩ := hf.keep hn (by simp)
    exact ⟨by simp [kept], by simp [kept, h0, LexResult.tok]⟩
  | @token m rest j ts h1 h2 h3 h4 _ ih =>
    intro l input hi hr hf
    obtain ⟨l', a1, a2, a3, a4⟩ := next_token_of h hne hi hr (hr ▸ h1) h2 h3 (hr ▸ h4)
    cases hs : skip j with
    | true =>
      have : kept skip ((j, m) :: ts) = kept skip ts := by simp [kept, hs]
      rw [this]
      exact ih a4 a2 (hf.skipOne a1 hs)
    | false =>
      have : kept skip ((j, m) :: ts) = (j, m) :: kept skip ts := by simp [kept, hs]
      rw [this]
      obtain ⟨⟨s, b1, b2⟩, b3⟩ := hf.keep a1 (fun _ e => by cases e; exact hs)
      rw [a3] at b1
      cases b1
      obtain ⟨c1, c2⟩ := ih a4 a2 b3
      refine ⟨fun i p hp => ?_, by simpa using c2⟩
      cases i with
      | zero => simp at hp; subst hp; exact b2
      | succ i => exact c1 i p (by simpa using hp)

/-- every stream comes from the tokens of the text -/
theorem tokens_of_stream (h : generateLexer fuel rules = .ok (.ok t)) (hne : ∀ r ∈ rules, r.NoEmptySeq) {src : List Char} :
    ∀ (w : List (Nat × List Char)) {l : Lexer} {input : Nat → Tok × List Char}, l.Inv src → FedBy t skip l input → StreamIs input w →
      ∃ ts, TextTokens rules l.rest ts ∧ w = kept skip ts := by
  intro w
  induction w with
  | nil =>
    intro l input hi hf hs
    obtain ⟨st, h0, h1⟩ := hf
    obtain ⟨r, s, a1, a2, a3⟩ := h1 0
    have hr : r = .eof := by
      have := hs.2
      simp only [List.length_nil, a3] at this
      cases r <;> simp_all [LexResult.tok]
    subst hr h0
    clear a2 a3
    generalize hl0 : st 0 = l0 at a1 hi
    clear hl0
    generalize st (0 + 1) = l1 at a1
    generalize hr : LexResult.eof = r at a1
    induction a1 with
    | keep b1 _ => subst hr; exact ⟨[], .done ((C12_eof_iff h _).mp ⟨_, b1⟩), rfl⟩
    | skip b1 b2 _ ih =>
      obtain ⟨m, c1, c2, c3, c4, c5, c6, c7⟩ := next_token_spec h hne hi b1
      obtain ⟨ts, d1, d2⟩ := ih c7 hr
      rw [c1] at c5 c6 ⊢
      exact ⟨_, .token c6 c3 c4 c5 d1, by simpa [kept, b2] using d2⟩
  | cons x w ih =>
    intro l input hi hf hs
    obtain ⟨st, h0, h1⟩ := hf
    obtain ⟨r, s, a1, a2, a3⟩ := h1 0
    have hx := hs.1 0 x rfl
    rw [a3] at hx
    obtain ⟨j, s'⟩ := x
    have hr : r = .token j := by
      have := congrArg Prod.fst hx
      cases r <;> simp_all [LexResult.tok]
    have hss : s = s' := congrArg Prod.snd hx
    subst hss hr
    have hf1 : FedBy t skip (st (0 + 1)) (fun n => input (n + 1)) := ⟨fun n => st (n + 1), rfl, fun n => h1 (n + 1)⟩
    have hs1 : StreamIs (fun n => input (n + 1)) w := ⟨fun i p hp => hs.1 (i + 1) p (by simpa using hp), by simpa using hs.2⟩
    rw [h0] at a1
    clear h1 h0 a3 hs hx
    generalize st (0 + 1) = l1 at a1 a2 hf1
    generalize hr : LexResult.token j = r at a1
    induction a1 with
    | keep b1 b2 =>
      subst hr
      obtain ⟨m, c1, c2, c3, c4, c5, c6, c7⟩ := next_token_spec h hne hi b1
      rw [a2] at c2
      cases c2
      obtain ⟨ts, d1, d2⟩ := ih c7 hf1 hs1
      rw [c1] at c5 c6 ⊢
      refine ⟨_, .token c6 c3 c4 c5 d1, ?_⟩
      have := b2 _ rfl
      simp [kept, this, d2]
    | skip b1 b2 _ ih2 =>
      obtain ⟨m, c1, c2, c3, c4, c5, c6, c7⟩ := next_token_spec h hne hi b1
      obtain ⟨ts, d1, d2⟩ := ih2 c7 a2 hf1 hr
      rw [c1] at c5 c6 ⊢
      exact ⟨_, .token c6 c3 c4 c5 d1, by simpa [kept, b2] using d2⟩

theorem TextTokens.unique {text : List Char} {ts ts' : List (Nat × List Char)} (h : TextTokens rules text ts) (h' : TextTokens rules text ts') : ts = ts' := by
  induction h generalizing ts' with
  | done he =>
    cases h' with
    | done => rfl
    | token h1 => exact absurd he h1
  | @token m rest j ts h1 h2 h3 h4 _ ih =>
    generalize htx : m ++ rest = text at h'
    cases h' with
    | done he => exact absurd he (htx ▸ h1)
    | @token m' rest' j' ts'' a1 a2 a3 a4 a5 =>
      have via : ∀ {m j}, BestMatch rules m j → Viable rules m := fun ⟨r, p, h1, h2, _⟩ => ⟨[], by simpa using ⟨r, List.mem_of_getElem? h1, h2⟩⟩
      have hlen : m.length = m'.length := Nat.le_antisymm (a4 _ _ htx.symm h2 (via h3)) (h4 _ _ htx a2 (via a3))
      obtain ⟨rfl, rfl⟩ := List.append_inj htx hlen
      obtain rfl := h3.unique a3
      rw [ih a5]

/-! ### every lexer feeds -/

theorem next_inv (h : generateLexer fuel rules = .ok (.ok t)) {src : List Char} {l l' : Lexer} {r : LexResult} (hi : l.Inv src) (hn : l.next t = .ok (r, l')) :
    l'.Inv src ∧ ∃ s, l'.slice = .ok s := by
  obtain ⟨m, rest', q, res, l2, g1, g2, g3, g4, g5, g6, g7, g8, g9, g10, g11, g12⟩ := next_slice (generateLexer_ok h) hi
  rw [hn] at g7
  cases g7
  exact ⟨g12, m, g11⟩

theorem NextKept.inv (h : generateLexer fuel rules = .ok (.ok t)) {src : List Char} {l l' : Lexer} {r : LexResult} (hk : NextKept t skip l r l') (hi : l.Inv src) :
    l'.Inv src ∧ ∃ s, l'.slice = .ok s := by
  induction hk with
  | keep hn _ => exact next_inv h hi hn
  | skip hn _ _ ih => exact ih (next_inv h hi hn).1

theorem nextKept_exists (h : generateLexer fuel rules = .ok (.ok t)) (hε : ∀ r ∈ rules, ¬ r.Matches []) : ∀ (n : Nat) (l : Lexer), l.rest.length ≤ n →
    ∃ r l', NextKept t skip l r l' := by
  intro n
  induction n with
  | zero =>
    intro l hl
    obtain ⟨l', hn⟩ := (C12_eof_iff h l).mpr (.inl (List.length_eq_zero_iff.mp (by omega)))
    exact ⟨_, l', .keep hn (by simp)⟩
  | succ n ih =>
    intro l hl
    obtain ⟨res, l', hn, _⟩ := C10_next_total h l
    by_cases hs : ∃ j, res = .token j ∧ skip j = true
    · obtain ⟨j, rfl, hj⟩ := hs
      obtain ⟨m, hm, hr⟩ := C13_token_consumes h hε hn
      have hlen : l'.rest.length ≤ n := by
        have := congrArg List.length hr
        have := List.length_pos_of_ne_nil hm
        simp at *; omega
      obtain ⟨r, l2, hk⟩ := ih l' hlen
      exact ⟨r, l2, .skip hn hj hk⟩
    · exact ⟨res, l', .keep hn (fun j hj => by
        by_contra hc
        exact hs ⟨j, hj, by simpa using hc⟩)⟩

theorem fedBy_exists (h : generateLexer fuel rules = .ok (.ok t)) (hε : ∀ r ∈ rules, ¬ r.Matches []) {src : List Char} {l : Lexer} (hi : l.Inv src) :
    ∃ input, FedBy t skip l input := by
  choose f g hfg using fun l : Lexer => nextKept_exists (skip := skip) h hε l.rest.length l (Nat.le_refl _)
  let st : Nat → Lexer := fun n => n.rec l (fun _ l => g l)
  have hinv : ∀ n, (st n).Inv src := by
    intro n
    induction n with
    | zero => exact hi
    | succ n ih => exact ((hfg (st n)).inv h ih).1
  choose s hs using fun n => ((hfg (st n)).inv h (hinv n)).2
  exact ⟨fun n => ((f (st n)).tok, s n), st, rfl, fun n => ⟨_, _, hfg (st n), hs n, rfl⟩⟩

theorem NextKept.shorter (h : generateLexer fuel rules = .ok (.ok t)) (hε : ∀ r ∈ rules, ¬ r.Matches []) {l l' : Lexer} {r : LexResult} (hk : NextKept t skip l r l') :
    ∀ {j}, r = .token j → l'.rest.length < l.rest.length := by
  induction hk with
  | keep hn _ =>
    rintro j rfl
    obtain ⟨m, hm, hr⟩ := C13_token_consumes h hε hn
    have := congrArg List.length hr
    have := List.length_pos_of_ne_nil hm
    simp at *; omega
  | skip hn _ _ ih =>
    intro j hj
    obtain ⟨m, hm, hr⟩ := C13_token_consumes h hε hn
    have := ih hj
    have := congrArg List.length hr
    simp at *; omega

theorem fedBy_ends (h : generateLexer fuel rules = .ok (.ok t)) (hε : ∀ r ∈ rules, ¬ r.Matches []) {l : Lexer} {input : Nat → Tok × List Char}
    (hf : FedBy t skip l input) : ∃ n, ∀ a, (input n).1 ≠ .tok a := by
  obtain ⟨st, h0, h1⟩ := hf
  by_contra hc
  push Not at hc
  have key : ∀ n, (st n).rest.length + n ≤ (st 0).rest.length := by
    intro n
    induction n with
    | zero => simp
    | succ n ih =>
      obtain ⟨r, s, a1, a2, a3⟩ := h1 n
      obtain ⟨a, ha⟩ := hc n
      rw [a3] at ha
      have : ∃ j, r = .token j := by cases r <;> simp_all [LexResult.tok]
      obtain ⟨j, hj⟩ := this
      have := a1.shorter h hε hj
      omega
  have := key ((st 0).rest.length + 1)
  omega

/-! ### the C++ lexer -/

theorem code_toCpp (r : LexResult) : r.toCpp.code = tokenCode r.tok := by cases r <;> rfl

theorem nextKept_sim (h : generateLexer fuel rules = .ok (.ok t)) {src : List Char} {budget : Nat} (hb : src.length < budget) {c c' : CppLexer} {r : CppToken}
    (hk : CppNextKept t budget skip c r c') : ∀ {l : Lexer} {done : List Char}, l.Inv src → src = done ++ l.rest → CppAt done l.rest c → l.position = bytes done →
      ∃ res l' done', NextKept t skip l res l' ∧ r = res.toCpp ∧ l'.Inv src ∧ src = done' ++ l'.rest ∧ CppAt done' l'.rest c' ∧ l'.position = bytes done' := by
  have ht := generateLexer_ok h
  induction hk with
  | @keep c c' r hn hs =>
    intro l done hi hsrc hc hp
    have hlen : l.rest.length < budget := by
      have := congrArg List.length hsrc
      simp at this; omega
    obtain ⟨m, res, l', c2, g1, g2, g3, g4, g5, g6, g7, g8⟩ := next_sim ht hc hp hlen
    rw [hn] at g3
    cases g3
    refine ⟨res, l', done ++ m, .keep g2 (fun j hj => hs j (by rw [hj]; rfl)), rfl, (next_inv h hi g2).1, by rw [hsrc, g1]; simp, g4, g5⟩
  | @skip c c1 c' j r hn hs _ ih =>
    intro l done hi hsrc hc hp
    have hlen : l.rest.length < budget := by
      have := congrArg List.length hsrc
      simp at this; omega
    obtain ⟨m, res, l', c2, g1, g2, g3, g4, g5, g6, g7, g8⟩ := next_sim ht hc hp hlen
    rw [hn] at g3
    injection g3 with g3
    obtain ⟨e1, rfl⟩ := Prod.mk.inj g3
    have hres : res = .token j := by cases res <;> simp_all [LexResult.toCpp]
    subst hres
    obtain ⟨res, l2, done', i1, i2, i3, i4, i5, i6⟩ := ih (next_inv h hi g2).1 (by rw [hsrc, g1]; simp : src = (done ++ m) ++ l'.rest) g4 g5
    exact ⟨res, l2, done', .skip g2 hs i1, i2, i3, i4, i5, i6⟩

/-- the C++ lexer on the bytes of a text feeds the parser the same tokens as the Rust lexer on the text -/
theorem cppFedBy_sim {T : Type} (h : generateLexer fuel rules = .ok (.ok t)) {src : List Char} {budget : Nat} (hb : src.length < budget) {input : Nat → Nat × T}
    (hf : CppFedBy t budget skip (CppLexer.new (utf8 src)) input) :
    ∃ input', FedBy t skip (Lexer.new src) input' ∧ ∀ n, (input n).1 = tokenCode (input' n).1 := by
  obtain ⟨cst, h0, h1⟩ := hf
  choose cr hk hcode using h1
  let Rel : CppLexer → Lexer → Prop := fun c l => ∃ done, l.Inv src ∧ src = done ++ l.rest ∧ CppAt done l.rest c ∧ l.position = bytes done
  have stepE : ∀ n (l : Lexer), Rel (cst n) l → ∃ l', Rel (cst (n + 1)) l' ∧ ∃ res, NextKept t skip l res l' ∧ cr n = res.toCpp := by
    rintro n l ⟨done, a1, a2, a3, a4⟩
    obtain ⟨res, l', done', i1, i2, i3, i4, i5, i6⟩ := nextKept_sim h hb (hk n) a1 a2 a3 a4
    exact ⟨l', ⟨done', i3, i4, i5, i6⟩, res, i1, i2⟩
  have hstart : Rel (cst 0) (Lexer.new src) := ⟨[], inv_new src, rfl, by rw [h0]; exact ⟨rfl, rfl, Or.inl ⟨rfl, rfl⟩⟩, rfl⟩
  choose! f hf1 hf2 using stepE
  let st : Nat → Lexer := fun n => n.rec (Lexer.new src) (fun n l => f n l)
  have hst : ∀ n, Rel (cst n) (st n) := by
    intro n
    induction n with
    | zero => exact hstart
    | succ n ih => exact hf1 n _ ih
  choose res hres1 hres2 using fun n => hf2 n _ (hst n)
  choose s hs using fun n => ((hres1 n).inv h (hst n).choose_spec.1).2
  refine ⟨fun n => ((res n).tok, s n), ⟨st, rfl, fun n => ⟨_, _, hres1 n, hs n, rfl⟩⟩, fun n => ?_⟩
  rw [hcode n, hres2 n, code_toCpp]

/-- tokens of the stream have numbers of rules -/
theorem fedBy_below (h : generateLexer fuel rules = .ok (.ok t)) (hne : ∀ r ∈ rules, r.NoEmptySeq) {src : List Char} {l : Lexer} {input : Nat → Tok × List Char}
    (hi : l.Inv src) (hf : FedBy t skip l input) : TokensBelow rules.length input := by
  obtain ⟨st, h0, h1⟩ := hf
  have hinv : ∀ n, (st n).Inv src := by
    intro n
    induction n with
    | zero => rw [h0]; exact hi
    | succ n ih =>
      obtain ⟨r, s, a1, _⟩ := h1 n
      exact (a1.inv h ih).1
  intro n a ha
  obtain ⟨r, s, a1, a2, a3⟩ := h1 n
  rw [a3] at ha
  have hr : r = .token a := by cases r <;> simp_all [LexResult.tok]
  subst hr
  have := hinv n
  clear a2 a3 ha
  generalize st n = l0 at a1 this
  generalize st (n + 1) = l1 at a1
  generalize hr : LexResult.token a = r at a1
  induction a1 with
  | keep hn _ =>
    subst hr
    obtain ⟨m, _, _, _, ⟨r, p, c, _⟩, _⟩ := next_token_spec h hne this hn
    exact (List.getElem?_eq_some_iff.mp c).1
  | skip hn _ _ ih => exact ih (next_inv h this hn).1 hr

end Verif
