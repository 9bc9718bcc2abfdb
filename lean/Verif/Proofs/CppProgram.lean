import Verif.Proofs.Pipeline
import Verif.Proofs.RustProgram
import Verif.Props.CppText
import Verif.Spec.CppProgram

/-!
# Token functions around the text of the C++ lexer
-/

set_option autoImplicit false

namespace Verif

/-! ## The data do not matter -/

section
variable {T U : Type}

def LREvent.mapData (f : T → U) : LREvent T → LREvent U
  | .shift t d => .shift t (f d)
  | .reduce i => .reduce i

def LRResult.mapData (f : T → U) : LRResult T → LRResult U
  | .ok es pos => .ok (es.map (·.mapData f)) pos
  | .unexpected es pos e => .unexpected (es.map (·.mapData f)) pos e
  | .panic es pos => .panic (es.map (·.mapData f)) pos
  | .running es pos => .running (es.map (·.mapData f)) pos

def LRStep.mapData (f : T → U) : LRStep T → LRStep U
  | .done => .done
  | .unexpected e => .unexpected e
  | .panic ev => .panic (ev.map (·.mapData f))
  | .next s p e => .next s p (e.mapData f)

theorem lrGoto_mapData (f : T → U) (m : LRMachine) (stack : List StackSym) (pos : Nat) (ev : LREvent T) :
    lrGoto m stack pos (ev.mapData f) = (lrGoto m stack pos ev).mapData f := by
  unfold lrGoto
  repeat' split
  all_goals rfl

theorem lrStep_mapData (f : T → U) (m : LRMachine) (input : Nat → Tok × T) (stack : List StackSym) (pos : Nat) :
    lrStep m (fun i => ((input i).1, f (input i).2)) stack pos = (lrStep m input stack pos).mapData f := by
  unfold lrStep
  split
  · rfl
  · rename_i q tail
    show (match m.nextAction q (input pos).1 with
      | .panic => LRStep.panic none
      | .unexpected expected => .unexpected expected
      | .act .shift => lrGoto m (.terminal (input pos).1 :: .state q :: tail) (pos + 1) (.shift (input pos).1 (f (input pos).2))
      | .act (.reduce i) => _) = _
    cases m.nextAction q (input pos).1 with
    | panic => rfl
    | unexpected e => rfl
    | act a =>
      cases a with
      | shift => exact lrGoto_mapData f m _ _ (.shift _ _)
      | reduce i =>
        simp only
        cases m.reduction i with
        | none => rfl
        | some x =>
          obtain ⟨k, A⟩ := x
          simp only
          split
          · rfl
          · exact lrGoto_mapData f m _ _ (.reduce _)
  · rfl

theorem lrRun_mapData (f : T → U) (m : LRMachine) (input : Nat → Tok × T) (n : Nat) : ∀ stack pos ev,
    lrRun m (fun i => ((input i).1, f (input i).2)) n stack pos (ev.map (·.mapData f)) = (lrRun m input n stack pos ev).mapData f := by
  induction n with
  | zero => intro _ _ _; rfl
  | succ n ih =>
    intro stack pos ev
    unfold lrRun
    rw [lrStep_mapData]
    cases lrStep m input stack pos with
    | done => rfl
    | unexpected e => rfl
    | panic e => cases e <;> simp [LRStep.mapData, LRResult.mapData]
    | next s p e =>
      simp only [LRStep.mapData]
      rw [← ih]
      simp

/-- two inputs with the same tokens have the same outcome but for the data -/
theorem lrParse_data {m : LRMachine} {a : Nat → Tok × T} {b : Nat → Tok × U} (h : ∀ i, (a i).1 = (b i).1) (n : Nat) :
    (lrParse m a n).mapData (fun _ => ()) = (lrParse m b n).mapData (fun _ => ()) := by
  have e : (fun i => ((a i).1, (fun _ => () : T → Unit) (a i).2)) = fun i => ((b i).1, (fun _ => () : U → Unit) (b i).2) := by
    funext i
    rw [h i]
  unfold lrParse
  rw [← lrRun_mapData (fun _ => ()) m a n _ _ [], ← lrRun_mapData (fun _ => ()) m b n _ _ [], e]
  rfl

end

/-! ## The text of the lexer -/

theorem cppLoop_mono (t : LexerTables) : ∀ (n m : Nat) (state : Nat) (l : CppLexer) (x : CppToken × CppLexer), n ≤ m → cppLoop t n state l = .ok x → cppLoop t m state l = .ok x := by
  intro n
  induction n with
  | zero => intro m state l x _ h; cases h
  | succ n ih =>
    intro m state l x hm h
    obtain ⟨m, rfl⟩ : ∃ k, m = k + 1 := ⟨m - 1, by omega⟩
    unfold cppLoop at h ⊢
    simp only at h ⊢
    split
    · rename_i he
      rw [if_pos he] at h
      exact h
    · rename_i he
      rw [if_neg he] at h
      cases hi : getAlphabetIndex t.alphabet (cppRead l).1 with
      | none => rw [hi] at h; exact h
      | some i =>
        rw [hi] at h
        simp only at h ⊢
        cases hc : cppStateSwitch t.dfa state i with
        | ret tok e => rw [hc] at h; exact h
        | advance q =>
          rw [hc] at h
          exact ih m _ _ _ (by omega) h

section
variable {lexFuel : Nat} {rules : List TokenRule} {t : LexerTables} (h : generateLexer lexFuel rules = .ok (.ok t)) {body : List CStmt}
variable (hrun : ∀ n l, runNext body n l = (CppLexer.next t n l).map (fun x => (cppTokenName (ruleName rules) x.1, x.2)))
variable {skip : List Char → Bool} (hskip : skip "TK_EOF".toList = false ∧ skip "TK_ERR".toList = false) {src : List Char}

/-- both lexers have read the same part of the text -/
structure CppSame (src : List Char) (l : Lexer) (c : CppLexer) : Prop where
  inv : l.Inv src
  at_ : ∃ done, src = done ++ l.rest ∧ CppAt done l.rest c ∧ l.position = bytes done

include h hrun in
/-- one call -/
theorem runNext_sim {l : Lexer} {c : CppLexer} (hs : CppSame src l c) : ∃ res l' c', l.next t = .ok (res, l') ∧ CppSame src l' c' ∧
    (∀ j, res = .token j → l'.slice = .ok (between src (c'.startPos, c'.endPos))) ∧
    (∃ n, runNext body n c = .ok (cppTokenName (ruleName rules) res.toCpp, c')) ∧
    ∀ n v c2, runNext body n c = .ok (v, c2) → v = cppTokenName (ruleName rules) res.toCpp ∧ c2 = c' := by
  have ht := generateLexer_ok h
  obtain ⟨hi, done, hsrc, hc, hp⟩ := hs
  obtain ⟨m, res, l', c', g1, g2, g3, g4, g5, g6, g7, g8⟩ := next_sim ht hc hp (Nat.lt_succ_self _)
  have hsrc' : src = (done ++ m) ++ l'.rest := by rw [hsrc, g1]; simp
  obtain ⟨m2, rest2, q2, res2, l2, k1, _, _, _, _, _, k2, k3, k4, k5, k6, k7⟩ := next_slice ht hi
  rw [g2] at k2
  cases k2
  have hm : m2 = m := by
    rw [g1, k3] at k1
    exact (List.append_cancel_right k1).symm
  subst hm
  refine ⟨res, l', c', g2, ⟨k7, done ++ m2, hsrc', g4, g5⟩, ?_, ⟨_, by rw [hrun, g3]; rfl⟩, ?_⟩
  · intro j hj
    rw [k6]
    congr 1
    unfold between
    show m2 = (src.take c'.endPos).drop c'.startPos
    rw [g7, g8 j hj, hsrc', List.take_left' rfl, List.drop_left' rfl]
  · intro n v c2 hn
    rw [hrun] at hn
    cases e : CppLexer.next t n c with
    | error x => rw [e] at hn; cases hn
    | ok x =>
      rw [e] at hn
      have e1 := cppLoop_mono t n (n + (l.rest.length).succ) _ _ _ (by omega) e
      have e2 := cppLoop_mono t (l.rest.length).succ (n + (l.rest.length).succ) _ _ _ (by omega) g3
      rw [e1] at e2
      cases e2
      cases hn
      exact ⟨rfl, rfl⟩

include h hrun hskip in
theorem cppTextNext_sim {c c' : CppLexer} {v : List Char} (hk : CppTextNext body skip c v c') : ∀ {l : Lexer}, CppSame src l c →
    ∃ res l', NextKept t (cppSkipped rules skip) l res l' ∧ v = cppTokenName (ruleName rules) res.toCpp ∧ CppSame src l' c' ∧
      ∀ j, res = .token j → l'.slice = .ok (between src (c'.startPos, c'.endPos)) := by
  induction hk with
  | @keep c c' v n hn hs =>
    intro l hl
    obtain ⟨res, l', c2, a1, a2, a3, _, a5⟩ := runNext_sim h hrun hl
    obtain ⟨rfl, rfl⟩ := a5 _ _ _ hn
    exact ⟨res, l', .keep a1 (fun j hj => by subst hj; exact hs), rfl, a2, a3⟩
  | @skip c c1 c' w v n hn hs _ ih =>
    intro l hl
    obtain ⟨res, l', c2, a1, a2, a3, _, a5⟩ := runNext_sim h hrun hl
    obtain ⟨rfl, rfl⟩ := a5 _ _ _ hn
    obtain ⟨res', l2, b1, b2⟩ := ih a2
    cases res with
    | token j => exact ⟨res', l2, .skip a1 hs b1, b2⟩
    | eof => exact absurd hs (by rw [show skip (cppTokenName (ruleName rules) LexResult.eof.toCpp) = false from hskip.1]; simp)
    | invalidChar x => exact absurd hs (by rw [show skip (cppTokenName (ruleName rules) (LexResult.invalidChar x).toCpp) = false from hskip.2]; simp)
    | unexpectedAlphabet x => exact absurd hs (by rw [show skip (cppTokenName (ruleName rules) (LexResult.unexpectedAlphabet x).toCpp) = false from hskip.2]; simp)

include h hrun hskip in
theorem cppTextNext_of {l l' : Lexer} {res : LexResult} (hk : NextKept t (cppSkipped rules skip) l res l') : ∀ {c : CppLexer}, CppSame src l c →
    ∃ c', CppTextNext body skip c (cppTokenName (ruleName rules) res.toCpp) c' ∧ CppSame src l' c' := by
  induction hk with
  | @keep l l' r hn hs =>
    intro c hc
    obtain ⟨res, l2, c2, a1, a2, _, ⟨n, a4⟩, _⟩ := runNext_sim h hrun hc
    rw [hn] at a1
    cases a1
    refine ⟨c2, .keep a4 ?_, a2⟩
    cases r with
    | token j => exact hs j rfl
    | eof => exact hskip.1
    | invalidChar x => exact hskip.2
    | unexpectedAlphabet x => exact hskip.2
  | skip hn hs _ ih =>
    intro c hc
    obtain ⟨res, l2, c2, a1, a2, _, ⟨n, a4⟩, _⟩ := runNext_sim h hrun hc
    rw [hn] at a1
    cases a1
    obtain ⟨c3, b1, b2⟩ := ih a2
    exact ⟨c3, .skip a4 hs b1, b2⟩

theorem cpp_code {names : List (List Char)} (hn : names = rules.map (·.name.toList)) (hnd : (cppTokenVariants names).Nodup) {res : LexResult} (hj : ∀ j, res = .token j → j < rules.length) (code : Nat) :
    (cppTokenName (ruleName rules) res.toCpp, code) ∈ (cppTokenVariants names).zipIdx ↔ code = tokenCode res.tok := by
  have key : (cppTokenVariants names)[tokenCode res.tok]? = some (cppTokenName (ruleName rules) res.toCpp) := by
    subst hn
    cases res with
    | token j =>
      have := hj j rfl
      simp [cppTokenVariants, tokenCode, LexResult.tok, cppTokenName, LexResult.toCpp, ruleName, List.getElem?_eq_getElem this]
    | eof => rfl
    | invalidChar x => rfl
    | unexpectedAlphabet x => rfl
  rw [List.mem_zipIdx_iff_getElem?]
  constructor
  · intro e
    exact (List.getElem?_inj (List.getElem?_eq_some_iff.mp e).1 hnd).mp (by rw [e, key])
  · rintro rfl
    exact key

/-- the same, with the state after each call -/
def CppFedText (body : List CStmt) (tokens : List (List Char × Nat)) (skip : List Char → Bool) (stream : List UInt8) (inp : Nat → Nat × (Nat × Nat)) (st : Nat → CppLexer) : Prop :=
  st 0 = CppLexer.new stream ∧ ∀ k, ∃ v, CppTextNext body skip (st k) v (st (k + 1)) ∧ (v, (inp k).1) ∈ tokens ∧ (inp k).2 = ((st (k + 1)).startPos, (st (k + 1)).endPos)

theorem cppSame_new (src : List Char) : CppSame src (Lexer.new src) (CppLexer.new (utf8 src)) := ⟨inv_new src, [], rfl, ⟨rfl, rfl, .inl ⟨rfl, rfl⟩⟩, rfl⟩

include h hrun hskip in
/-- a token function around the text is one around the modelled Rust lexer -/
theorem cppTextFed_fed (hne : ∀ r ∈ rules, r.NoEmptySeq) {names : List (List Char)} (hn : names = rules.map (·.name.toList)) (hnd : (cppTokenVariants names).Nodup) {inp : Nat → Nat × (Nat × Nat)}
    {cst : Nat → CppLexer} (hf : CppFedText body (cppTokenVariants names).zipIdx skip (utf8 src) inp cst) :
    ∃ input, FedBy t (cppSkipped rules skip) (Lexer.new src) input ∧ ∀ k, (inp k).1 = tokenCode (input k).1 ∧ ∀ a, (input k).1 = .tok a → (input k).2 = between src (inp k).2 := by
  obtain ⟨h0, h1⟩ := hf
  choose v hk hc hd using h1
  have stepE : ∀ n (l : Lexer), CppSame src l (cst n) → ∃ l', CppSame src l' (cst (n + 1)) ∧ ∃ res, NextKept t (cppSkipped rules skip) l res l' ∧ v n = cppTokenName (ruleName rules) res.toCpp ∧
      ∀ j, res = .token j → l'.slice = .ok (between src ((cst (n + 1)).startPos, (cst (n + 1)).endPos)) := by
    intro n l hl
    obtain ⟨res, l', a1, a2, a3, a4⟩ := cppTextNext_sim h hrun hskip (hk n) hl
    exact ⟨l', a3, res, a1, a2, a4⟩
  choose! f hf1 hf2 using stepE
  let st : Nat → Lexer := fun n => n.rec (Lexer.new src) (fun n l => f n l)
  have hst : ∀ n, CppSame src (st n) (cst n) := by
    intro n
    induction n with
    | zero => rw [h0]; exact cppSame_new src
    | succ n ih => exact hf1 n _ ih
  choose res b1 b2 b3 using fun n => hf2 n _ (hst n)
  choose s hs using fun n => ((b1 n).inv h (hst n).inv).2
  have hfed : FedBy t (cppSkipped rules skip) (Lexer.new src) (fun n => ((res n).tok, s n)) := ⟨st, rfl, fun n => ⟨_, _, b1 n, hs n, rfl⟩⟩
  have hbelow := fedBy_below h hne (inv_new src) hfed
  refine ⟨_, hfed, fun k => ⟨?_, ?_⟩⟩
  · have := hc k
    rw [b2 k] at this
    exact (cpp_code hn hnd (fun j hj => hbelow k j (by show (res k).tok = _; rw [hj]; rfl)) _).mp this
  · intro a ha
    have hr : res k = .token a := by
      have : (res k).tok = .tok a := ha
      cases hx : res k <;> simp_all [LexResult.tok]
    have := b3 k a hr
    rw [hs k, ← hd k] at this
    exact Except.ok.inj this

include h hrun hskip in
theorem cppTextFed_of (hne : ∀ r ∈ rules, r.NoEmptySeq) {names : List (List Char)} (hn : names = rules.map (·.name.toList)) (hnd : (cppTokenVariants names).Nodup) {input : Nat → Tok × List Char}
    (hf : FedBy t (cppSkipped rules skip) (Lexer.new src) input) : ∃ inp cst, CppFedText body (cppTokenVariants names).zipIdx skip (utf8 src) inp cst := by
  have hbelow := fedBy_below h hne (inv_new src) hf
  obtain ⟨st, h0, h1⟩ := hf
  choose res s a b c using h1
  have stepE : ∀ n (x : CppLexer), CppSame src (st n) x → ∃ y, CppTextNext body skip x (cppTokenName (ruleName rules) (res n).toCpp) y ∧ CppSame src (st (n + 1)) y :=
    fun n x hx => cppTextNext_of h hrun hskip (a n) hx
  choose! f hf1 hf2 using stepE
  let cst : Nat → CppLexer := fun n => n.rec (CppLexer.new (utf8 src)) (fun n l => f n l)
  have hcst : ∀ n, CppSame src (st n) (cst n) := by
    intro n
    induction n with
    | zero => rw [h0]; exact cppSame_new src
    | succ n ih => exact hf2 n _ ih
  refine ⟨fun k => (tokenCode (res k).tok, ((cst (k + 1)).startPos, (cst (k + 1)).endPos)), cst, rfl, fun k => ⟨_, hf1 k _ (hcst k), ?_, rfl⟩⟩
  exact (cpp_code hn hnd (fun j hj => hbelow k j (by rw [c k, hj]; rfl)) _).mpr rfl

include h hrun in
theorem cppTextNext_det {l : Lexer} {c c1 c2 : CppLexer} {v1 v2 : List Char} (hl : CppSame src l c) (h1 : CppTextNext body skip c v1 c1) (h2 : CppTextNext body skip c v2 c2) : v1 = v2 ∧ c1 = c2 := by
  induction h1 generalizing l with
  | keep a b =>
    obtain ⟨_, _, _, _, _, _, _, key⟩ := runNext_sim h hrun hl
    obtain ⟨e1, e2⟩ := key _ _ _ a
    cases h2 with
    | keep c d => obtain ⟨e3, e4⟩ := key _ _ _ c; exact ⟨by rw [e1, e3], by rw [e2, e4]⟩
    | skip c d e => obtain ⟨e3, e4⟩ := key _ _ _ c; rw [e1, ← e3, d] at b; cases b
  | skip a b _ ih =>
    obtain ⟨_, _, _, _, hl', _, _, key⟩ := runNext_sim h hrun hl
    obtain ⟨e1, e2⟩ := key _ _ _ a
    cases h2 with
    | keep c d => obtain ⟨e3, e4⟩ := key _ _ _ c; rw [e1, ← e3, d] at b; cases b
    | skip c d e =>
      obtain ⟨e3, e4⟩ := key _ _ _ c
      subst e2 e4
      exact ih hl' e

include h hrun hskip in
theorem cppTextFed_unique {names : List (List Char)} (hnd : (cppTokenVariants names).Nodup) {inp inp' : Nat → Nat × (Nat × Nat)}
    {st st' : Nat → CppLexer} (h1 : CppFedText body (cppTokenVariants names).zipIdx skip (utf8 src) inp st) (h2 : CppFedText body (cppTokenVariants names).zipIdx skip (utf8 src) inp' st') : inp = inp' := by
  obtain ⟨a0, a1⟩ := h1
  obtain ⟨b0, b1⟩ := h2
  have key : ∀ k, st k = st' k ∧ ∃ l, CppSame src l (st k) := by
    intro k
    induction k with
    | zero => exact ⟨by rw [a0, b0], _, by rw [a0]; exact cppSame_new src⟩
    | succ k ih =>
      obtain ⟨e, l, hl⟩ := ih
      obtain ⟨v, c, _⟩ := a1 k
      obtain ⟨v', d, _⟩ := b1 k
      rw [← e] at d
      obtain ⟨_, l', _, _, hl', _⟩ := cppTextNext_sim h hrun hskip c hl
      exact ⟨(cppTextNext_det h hrun hl c d).2, l', hl'⟩
  funext k
  obtain ⟨e, l, hl⟩ := key k
  obtain ⟨v, c, c1, c2⟩ := a1 k
  obtain ⟨v', d, d1, d2⟩ := b1 k
  rw [← e] at d
  obtain ⟨rfl, e2⟩ := cppTextNext_det h hrun hl c d
  refine Prod.ext ?_ (by rw [c2, d2, e2])
  rw [List.mem_zipIdx_iff_getElem?] at c1 d1
  exact (List.getElem?_inj (List.getElem?_eq_some_iff.mp c1).1 hnd).mp (by rw [c1, d1])

end

end Verif
