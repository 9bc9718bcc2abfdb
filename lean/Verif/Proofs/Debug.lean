import Verif.Spec.Debug
import Verif.Proofs.Pipeline
import Verif.Proofs.Names
import Verif.Proofs.Display
import Verif.Proofs.GlrExact

/-! # Lemmas about `lapex debug` -/

set_option autoImplicit false

namespace Verif

section lex
variable {rules : List TokenRule} {t : LexerTables} {lexFuel : Nat}

/-- the lexer before the `n`-th call -/
theorem nthNext_spec (h : generateLexer lexFuel rules = .ok (.ok t)) (src : List Char) :
    ∃ (st : Nat → Lexer) (r : Nat → LexResult), st 0 = Lexer.new src ∧ (∀ n, (st n).next t = .ok (r n, st (n + 1))) ∧ ∀ n, nthNext t n (Lexer.new src) = .ok (r n) := by
  have ex : ∀ l : Lexer, ∃ r l', l.next t = .ok (r, l') := fun l => by
    obtain ⟨r, l', hn⟩ := C10_next_total h l
    exact ⟨r, l', hn.1⟩
  choose f g hfg using ex
  let st : Nat → Lexer := fun n => n.rec (Lexer.new src) (fun _ l => g l)
  refine ⟨st, fun n => f (st n), rfl, fun n => hfg _, fun n => ?_⟩
  have : ∀ n l, nthNext t n l = .ok (f (Nat.rec l (fun _ l => g l) n)) := by
    intro n
    induction n with
    | zero => intro l; simp only [nthNext, hfg, res_bind_of_ok]; rfl
    | succ n ih =>
      intro l
      simp only [nthNext, hfg, res_bind_of_ok]
      rw [ih]
      congr 2
      clear ih
      induction n with
      | zero => rfl
      | succ n ih => exact congrArg g ih
  exact this n _

/-- the token function of the main program is fed by the lexer, nothing left out -/
theorem debugInput_fed (h : generateLexer lexFuel rules = .ok (.ok t)) (src : List Char) :
    ∃ input, FedBy t (fun _ => false) (Lexer.new src) input ∧ ∀ n, debugInput t src n = ((input n).1, ()) := by
  obtain ⟨st, r, h0, h1, h2⟩ := nthNext_spec h src
  have hinv : ∀ n, (st n).Inv src := by
    intro n
    induction n with
    | zero => rw [h0]; exact inv_new src
    | succ n ih => exact (next_inv h ih (h1 n)).1
  choose s hs using fun n => (next_inv h (hinv n) (h1 n)).2
  refine ⟨fun n => ((r n).tok, s n), ⟨st, h0, fun n => ⟨r n, s n, .keep (h1 n) (by simp), hs n, rfl⟩⟩, fun n => ?_⟩
  unfold debugInput
  rw [h2 n]

/-- the tokens of the text and the stream of the main program -/
theorem debug_stream (h : generateLexer lexFuel rules = .ok (.ok t)) (src : List Char) :
    ((∀ r ∈ rules, r.NoEmptySeq ∧ r.Useful) → ∀ ts, TextTokens rules src ts → StreamIs (debugInput t src) (tokenNumbers ts)) ∧
    ((∀ r ∈ rules, r.NoEmptySeq) → ∀ w, StreamIs (debugInput t src) w → ∃ ts, TextTokens rules src ts ∧ w = tokenNumbers ts) := by
  obtain ⟨input, hf, he⟩ := debugInput_fed h src
  have hk : ∀ ts : List (Nat × List Char), kept (fun _ => false) ts = ts := fun ts => by simp [kept]
  constructor
  · intro hne ts hts
    have hs := stream_of_tokens h hne hts (inv_new src) rfl hf
    rw [hk] at hs
    refine ⟨fun i x hx => ?_, ?_⟩
    · rw [tokenNumbers, List.getElem?_map] at hx
      cases hi : ts[i]? with
      | none => rw [hi] at hx; cases hx
      | some y =>
        rw [hi] at hx
        cases hx
        rw [he, hs.1 i y hi]
    · have := hs.2
      rw [he]
      simpa [tokenNumbers] using this
  · intro hne w hw
    have hs : StreamIs input (w.zipIdx.map fun x => (x.1.1, (input x.2).2)) := by
      refine ⟨fun i x hx => ?_, ?_⟩
      · rw [List.getElem?_map, List.getElem?_zipIdx] at hx
        cases hk : w[i]? with
        | none => rw [hk] at hx; cases hx
        | some y =>
          rw [hk] at hx
          simp at hx
          subst hx
          have := hw.1 i y hk
          rw [he] at this
          have h1 : (input i).1 = Tok.tok y.1 := by simpa using congrArg Prod.fst this
          exact Prod.ext h1 rfl
      · have := hw.2
        rw [he] at this
        simpa using this
    obtain ⟨ts, h1, h2⟩ := tokens_of_stream h hne _ (inv_new src) hf hs
    rw [hk] at h2
    refine ⟨ts, h1, ?_⟩
    rw [tokenNumbers, ← h2]
    refine List.ext_getElem (by simp) fun i hi1 hi2 => ?_
    simp

/-- after the end of the text comes the end again -/
theorem debug_end (h : generateLexer lexFuel rules = .ok (.ok t)) (src : List Char) {n : Nat} (hn : (debugInput t src n).1 = .eof) : (debugInput t src (n + 1)).1 = .eof := by
  obtain ⟨st, r, h0, h1, h2⟩ := nthNext_spec h src
  unfold debugInput at hn ⊢
  rw [h2] at hn ⊢
  dsimp only at hn ⊢
  have hr : r n = .eof := by cases hr : r n <;> simp [hr, LexResult.tok] at hn ⊢
  have h3 := h1 n
  rw [hr] at h3
  have := C12_eof_sticky h h3 (.cons (h1 (n + 1)) (.nil _)) (r (n + 1), _) (.head _)
  rw [show r (n + 1) = .eof from this]; rfl

end lex

/-! ## Runs on streams that agree at first -/

section agree
variable {T : Type}

def GlrResult.pos : GlrResult T → Nat
  | .ok _ p => p
  | .unexpected _ p _ => p
  | .panic _ p => p
  | .running _ p => p

theorem glrRun_pos_le (m : GlrMachine) (input : Nat → Tok × T) (rfuel : Nat) : ∀ (fuel : Nat) (h : GlrHeap T) (sts : List GNode) (pos : Nat) (ev : List (LREvent T)),
    pos ≤ (glrRun m input rfuel fuel h sts pos ev).pos := by
  intro fuel
  induction fuel with
  | zero => intro h sts pos ev; exact Nat.le_refl _
  | succ fuel ih =>
    intro h sts pos ev
    unfold glrRun
    split
    · exact Nat.le_refl _
    · split
      · exact Nat.le_refl _
      · exact Nat.le_refl _
      · exact Nat.le_refl _
      · split
        · exact Nat.le_refl _
        · exact Nat.le_trans (Nat.le_succ _) (ih _ _ _ _)

/-- two streams that agree below `k`: the same result, or both runs have come to `k` -/
theorem glrRun_agree (m : GlrMachine) {input input' : Nat → Tok × T} {k : Nat} (ha : ∀ i, i < k → input i = input' i) (rfuel : Nat) :
    ∀ (fuel : Nat) (h : GlrHeap T) (sts : List GNode) (pos : Nat) (ev : List (LREvent T)),
    glrRun m input rfuel fuel h sts pos ev = glrRun m input' rfuel fuel h sts pos ev ∨ k ≤ (glrRun m input rfuel fuel h sts pos ev).pos := by
  intro fuel
  induction fuel with
  | zero => intro h sts pos ev; exact .inl rfl
  | succ fuel ih =>
    intro h sts pos ev
    by_cases hk : k ≤ pos
    · exact .inr (Nat.le_trans hk (glrRun_pos_le _ _ _ _ _ _ _ _))
    · have hi := ha pos (by omega)
      unfold glrRun
      rw [← hi]
      split
      · exact .inl rfl
      · split
        · exact .inl rfl
        · exact .inl rfl
        · exact .inl rfl
        · split
          · exact .inl rfl
          · exact ih _ _ _ _

theorem glrParse_agree (m : GlrMachine) {input input' : Nat → Tok × T} {k : Nat} (ha : ∀ i, i < k → input i = input' i) (fuel : Nat) :
    glrParse m input fuel = glrParse m input' fuel ∨ k ≤ (glrParse m input fuel).pos := glrRun_agree m ha fuel fuel _ _ _ _

end agree

/-! ## Names and lines -/

section names
variable {rs : RuleSet} {g : Grammar}

theorem debugMethods_spec (wf : g.WF) : ∃ ms, debugMethods rs g = .ok ms ∧ ms.map (·.1) = visitorMethods rs g ∧
    List.Forall₂ (fun (v : Nat × List Char) (m : List Char × List Char) => v.2 = m.1 ∧ ∃ rule, g.rules[v.1]? = some rule ∧ ShowsRule g rule m.2) (ruleVisits rs g) ms := by
  have hidx : ∀ e ∈ rulesByNt g, ∀ i ∈ e.2, ∃ rule, g.rules[i]? = some rule := by
    intro e he i hi
    rw [(mem_rulesByNt.mp he).1] at hi
    obtain ⟨rule, h1, _⟩ := mem_rulesOf.mp hi
    exact ⟨rule, h1⟩
  unfold debugMethods visitorMethods ruleVisits
  revert hidx
  induction rulesByNt g with
  | nil => intro _; exact ⟨[], rfl, rfl, .nil⟩
  | cons e es ih =>
    intro hidx
    obtain ⟨ms, h1, h2, h3⟩ := ih fun e' he' => hidx e' (.tail _ he')
    obtain ⟨xss, hx, h1⟩ := res_bind_ok.mp h1
    cases h1
    have one : ∀ l : List (Nat × Nat), (∀ x ∈ l, ∃ rule, g.rules[x.1]? = some rule) → ∃ ys, l.mapM (debugMethod rs g e.1 e.2.length) = .ok ys ∧
        ys.map (·.1) = l.map (fun r => callbackName rs g e.1 e.2.length r.2 r.1) ∧
        List.Forall₂ (fun (v : Nat × List Char) (m : List Char × List Char) => v.2 = m.1 ∧ ∃ rule, g.rules[v.1]? = some rule ∧ ShowsRule g rule m.2)
          (l.map fun r => (r.1, callbackName rs g e.1 e.2.length r.2 r.1)) ys := by
      intro l
      induction l with
      | nil => intro _; exact ⟨[], rfl, rfl, .nil⟩
      | cons x xs ih =>
        intro hl
        obtain ⟨ys, a1, a2, a3⟩ := ih fun y hy => hl y (.tail _ hy)
        obtain ⟨rule, hr⟩ := hl x (.head _)
        obtain ⟨text, ht⟩ := ruleText_ok wf (List.mem_of_getElem? hr)
        refine ⟨(callbackName rs g e.1 e.2.length x.2 x.1, text) :: ys, ?_, by simp [a2], .cons ⟨rfl, rule, hr, ruleText_shows ht⟩ a3⟩
        rw [List.mapM_cons]
        simp only [debugMethod, hr, ht, res_bind_of_ok, a1]
        rfl
    obtain ⟨ys, a1, a2, a3⟩ := one e.2.zipIdx (fun x hx => hidx e (.head _) x.1 (by
      obtain ⟨_, h⟩ := List.mem_zipIdx' (x := x.1) (i := x.2) hx
      rw [h]
      exact List.getElem_mem _))
    refine ⟨(ys :: xss).flatten, ?_, ?_, ?_⟩
    · rw [List.mapM_cons, a1, res_bind_of_ok, hx]
      rfl
    · rw [List.flatten_cons, List.map_append, List.flatMap_cons, a2, h2]
    · rw [List.flatten_cons, List.flatMap_cons]
      exact List.rel_append a3 h3

theorem findKey_some {K V : Type} [DecidableEq K] {k : K} {v : V} {l : List (K × V)} (h : findKey k l = some v) : (k, v) ∈ l := by
  unfold findKey at h
  cases hf : l.find? (fun x => x.1 = k) with
  | none => rw [hf] at h; cases h
  | some x =>
    rw [hf] at h
    cases h
    have h1 := List.find?_some hf
    have h2 := List.mem_of_find?_eq_some hf
    have : x.1 = k := by simpa using h1
    rw [← this]
    exact h2

theorem findKey_of_mem {K V : Type} [DecidableEq K] {k : K} {v : V} {l : List (K × V)} (h : (k, v) ∈ l) (hn : (l.map (·.1)).Nodup) : findKey k l = some v := by
  cases hf : findKey k l with
  | none =>
    unfold findKey at hf
    rw [Option.map_eq_none_iff, List.find?_eq_none] at hf
    exact absurd (by simp) (hf _ h)
  | some v' =>
    have h' := findKey_some hf
    have : (k, v') = (k, v) := List.inj_on_of_nodup_map hn h' h rfl
    cases this
    rfl

/-- the line of a callback is that of its node -/
theorem debugLine_spec {names vs : List (List Char)} {ms : List (List Char × List Char)} (hv : rustTokenVariants names = .ok vs)
    (hm : List.Forall₂ (fun (v : Nat × List Char) (m : List Char × List Char) => v.2 = m.1 ∧ ∃ rule, g.rules[v.1]? = some rule ∧ ShowsRule g rule m.2) (ruleVisits rs g) ms)
    (hn : (ms.map (·.1)).Nodup) {e : LREvent Unit} {pe : PEvent Unit} (he : e.meaning g = some pe) (ha : ∀ a, pe = .shift a () → a < names.length) :
    ∃ line, debugLine vs (ruleVisits rs g) ms e = some line ∧ NodeLine names g pe line := by
  cases e with
  | shift tk d =>
    cases tk with
    | tok a =>
      simp only [LREvent.meaning, Option.some.injEq] at he
      subst he
      have hlt := ha a rfl
      unfold rustTokenVariants at hv
      obtain ⟨ws, h1, h2⟩ := res_bind_ok.mp hv
      cases h2
      have hf := mapM_forall₂ (P := fun x y => tokenEnumName x = .ok y) h1 fun _ _ _ h => h
      have hlen := hf.length_eq
      have hp := (List.forall₂_iff_get.mp hf).2 a hlt (by omega)
      simp only [List.get_eq_getElem, tokenEnumName] at hp
      obtain ⟨c, h3, h4⟩ := res_bind_ok.mp hp
      refine ⟨"shift ".toList ++ ws[a]'(by omega), ?_, ?_⟩
      · simp only [debugLine, List.getElem?_cons_succ]
        rw [List.getElem?_eq_getElem (by omega)]
        rfl
      · rw [Except.ok.injEq] at h4
        rw [← h4]
        exact .token (List.getElem?_eq_getElem hlt) h3
    | eof => simp [LREvent.meaning] at he
    | err => simp [LREvent.meaning] at he
  | reduce i =>
    simp only [LREvent.meaning] at he
    cases hr : g.rules[i]? with
    | none => rw [hr] at he; cases he
    | some rule =>
      rw [hr] at he
      cases he
      have hi : i < g.rules.length := (List.getElem?_eq_some_iff.mp hr).1
      have hvis : ∃ name, (i, name) ∈ ruleVisits rs g := by
        have : ∃ name, IsCallback rs g i name := by
          by_cases hc : ruleCount g rule.lhs = 1
          · exact ⟨_, rule, hr, .inl ⟨hc, rfl⟩⟩
          · cases ht : tagOf rs g i with
            | none => exact ⟨_, rule, hr, .inr (.inr ⟨hc, ht, rfl⟩)⟩
            | some tag => exact ⟨_, rule, hr, .inr (.inl ⟨hc, tag, ht, rfl⟩)⟩
        obtain ⟨name, hname⟩ := this
        exact ⟨name, visits_callback.mpr hname⟩
      obtain ⟨name, hname⟩ := hvis
      obtain ⟨k, hk, hk'⟩ := List.getElem_of_mem hname
      have hlen := hm.length_eq
      have hp := (List.forall₂_iff_get.mp hm).2 k hk (by omega)
      simp only [List.get_eq_getElem] at hp
      rw [hk'] at hp
      obtain ⟨h1, rule', h2, h3⟩ := hp
      dsimp only at h1 h2
      rw [hr] at h2
      cases h2
      refine ⟨(ms[k]'(by omega)).2, ?_, .rule h3⟩
      simp only [debugLine]
      rw [findKey_of_mem hname (visits_nodup rs g)]
      simp only [Option.bind_some]
      refine findKey_of_mem ?_ hn
      rw [h1]
      exact List.getElem_mem _

end names

end Verif
