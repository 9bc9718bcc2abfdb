import Verif.Proofs.RustGlrParse
import Verif.Proofs.RustGlrCalls

/-! # The text of the GLR parser: reading its driver -/

set_option autoImplicit false

namespace Verif

variable {T ε : Type}

section
variable (m d entry nts rules actions gotos reds visits : RForest)

/-- the block of a function of the parser -/
def glrFn (name : List Char) : RForest := (findFn name .look (glrImpl entry nts rules actions gotos reds visits)).getD .nil

set_option maxRecDepth 8000 in
theorem find_glrParse : findFn "parse".toList .look (glrImpl entry nts rules actions gotos reds visits) = some (glrFn entry nts rules actions gotos reds visits "parse".toList) := rfl
set_option maxRecDepth 8000 in
theorem find_glrReduces : findFn "apply_reduces".toList .look (glrImpl entry nts rules actions gotos reds visits) = some (glrFn entry nts rules actions gotos reds visits "apply_reduces".toList) := rfl
set_option maxRecDepth 8000 in
theorem find_glrReduce : findFn "apply_reduce".toList .look (glrImpl entry nts rules actions gotos reds visits) = some (glrFn entry nts rules actions gotos reds visits "apply_reduce".toList) := rfl
set_option maxRecDepth 8000 in
theorem read_glrReduces : readD (2 * (glrFn entry nts rules actions gotos reds visits "apply_reduces".toList).size) (glrFn entry nts rules actions gotos reds visits "apply_reduces".toList) = some dReduces := rfl
set_option maxRecDepth 8000 in
theorem read_glrReduce : readD (2 * (glrFn entry nts rules actions gotos reds visits "apply_reduce".toList).size) (glrFn entry nts rules actions gotos reds visits "apply_reduce".toList) = some dReduceOne := rfl

/-- the block of `combine_errors` -/
def combineBlock : RForest := (topFn "combine_errors".toList false (glrStream .nil .nil .nil .nil .nil .nil .nil .nil .nil)).getD .nil
set_option maxRecDepth 8000 in
theorem find_glrCombine : topFn "combine_errors".toList false (glrStream m d entry nts rules actions gotos reds visits) = some combineBlock := rfl
set_option maxRecDepth 8000 in
theorem read_glrCombine : readD (2 * combineBlock.size) combineBlock = some dCombine := rfl
end

theorem read_glrParse (q : Nat) (nts rules actions gotos reds visits : RForest) :
    readD (2 * (glrFn (rUsize q) nts rules actions gotos reds visits "parse".toList).size) (glrFn (rUsize q) nts rules actions gotos reds visits "parse".toList) = some (dParse (rUsize q)) := rfl

/-! ## The functions in a text -/

/-- a text that has the driver of the GLR parser -/
structure HasDriver (text : List Char) (q : Nat) : Prop where
  parse : readDriver "parse".toList text = some (dParse (rUsize q))
  reduces : readDriver "apply_reduces".toList text = some dReduces
  reduce : readDriver "apply_reduce".toList text = some dReduceOne
  combine : (do let f ← rRead text; let b ← topFn "combine_errors".toList false f; readD (2 * b.size) b : Option (List DStmt)) = some dCombine

theorem readDriver_of {text : List Char} {f b i : RForest} {name : List Char} (h1 : rRead text = some f) (h2 : findImpl "Parser".toList none f = some i) (h3 : findFn name .look i = some b) :
    readDriver name text = readD (2 * b.size) b := by
  unfold readDriver rustBlock
  rw [h1]
  simp only [Option.bind_eq_bind, Option.bind_some, h2, h3]

theorem hasDriver {rs : RuleSet} {g : Grammar} (hg : g.WordNames) (ht : TagWords rs) {p : GlrProg} {text : List Char} (h : rustGlrFile rs g p = .ok text) : HasDriver text p.entry := by
  obtain ⟨methods, debug, actions, gotos, reds, _, _, _, _, _, hr⟩ := glr_file hg ht h
  constructor
  · rw [readDriver_of hr (find_glrImpl _ _ _ _ _ _ _ _ _) (find_glrParse _ _ _ _ _ _ _), read_glrParse]
  · rw [readDriver_of hr (find_glrImpl _ _ _ _ _ _ _ _ _) (find_glrReduces _ _ _ _ _ _ _), read_glrReduces]
  · rw [readDriver_of hr (find_glrImpl _ _ _ _ _ _ _ _ _) (find_glrReduce _ _ _ _ _ _ _), read_glrReduce]
  · rw [hr]
    simp only [Option.bind_eq_bind, Option.bind_some, find_glrCombine, read_glrCombine]

section
variable {text : List Char} {q : Nat} (hd : HasDriver text q) {f : RGlrCalls T} {variants : List (List Char)} {g : Grammar} {m : GlrMachine} {visits : List (Nat × List Char)} (hf : DCallsFit f variants g m visits)

include hd hf in
theorem reduce_fits : ReduceFit (rustApplyReduce text hGss f) variants g m := by
  intro i x st hst
  have key := sim_applyReduce hf (0, 0) i x st hst
  unfold rustApplyReduce
  rw [hd.reduce]
  cases hA : applyReduce m i x st with
  | error e =>
    rw [hA] at key
    simp only at key ⊢
    rw [key]
    rfl
  | ok st' =>
    rw [hA] at key
    exact key

include hd hf in
theorem reduces_fit (n : Nat) : ReducesFit (rustApplyReduces text hGss f n) variants g m n := by
  intro x h xs hx
  have key := sim_applyReduces hf (reduce_fits hd hf) x.1 x.2 n h xs hx
  unfold rustApplyReduces
  rw [hd.reduces]
  cases hA : applyReduces m x.1 n h [] xs with
  | error e =>
    rw [hA] at key
    simp only at key ⊢
    rw [key]
    rfl
  | ok r =>
    rw [hA] at key
    cases r with
    | ok h' reduced => exact key
    | unexpected errors => exact key

include hd in
theorem combine_fits (x : Tok × T) (errors : List (List (Option Nat))) (h : errors ≠ []) : (rustCombine text (errors.map (rErrOf variants x.1 x.2)) : Res (RGlrEnd T ε)) = .ok (glrEnd variants x errors) := by
  unfold rustCombine
  rw [hd.combine]
  exact call_combine (0, 0) variants x errors h

/-- the loop of `parse` -/
def textLoop (text : List Char) (inp : Nat → Except ε (List Char × T)) (n : Nat) : RGlrVars T → Res (ROut (RGlrVars T) (RGlrEnd T ε)) :=
  dLoop ((rGlrMachine hGss (rustGlrCalls text) (rustApplyReduces text hGss (rustGlrCalls text) n) (rustCombine text) inp).test (rs! "!(stacks.len() == 1 && stacks[0].is_root())"))
    (fun s => (rGlrMachine hGss (rustGlrCalls text) (rustApplyReduces text hGss (rustGlrCalls text) n) (rustCombine text) inp).execs (n, n) .nil dRound s) n n

theorem end_loop (inp : Nat → Except ε (List Char × T)) (n : Nat) (s : RGlrVars T) :
    (rGlrMachine hGss (rustGlrCalls text) (rustApplyReduces text hGss (rustGlrCalls text) n) (rustCombine text) inp).execs (n, n) (rs! "return")
      [.whileDo (rs! "!(stacks.len() == 1 && stacks[0].is_root())") dRound, .tail (rs! "Ok(())")] s = match textLoop text inp n s with
      | .error e => .error e
      | .ok (.next s) => .ok (.ret s .ok)
      | .ok (.ret s r) => .ok (.ret s r) := by
  rw [DMachine.execs, d_while]
  unfold textLoop
  cases dLoop _ _ _ _ s with
  | error e => rfl
  | ok r =>
    cases r with
    | next s => simp only [d_one, d_tail, act_gOk]
    | ret s r => rfl

include hd in
/-- `parse` up to the loop -/
theorem run_parse (inp : Nat → Except ε (List Char × T)) (n : Nat) : runGlrParserOn hGss text inp n = match inp 0 with
    | .error e => .ok (.lexerError e, [], 1)
    | .ok x => match textLoop text inp n { heap := ((⟨[], []⟩ : RHeap T).root.1.push (⟨[], []⟩ : RHeap T).root.2 (some q) none).1, calls := 1, lookahead := some [x], root := some (⟨[], []⟩ : RHeap T).root.2, stack := some ((⟨[], []⟩ : RHeap T).root.1.push (⟨[], []⟩ : RHeap T).root.2 (some q) none).2, active := some [((⟨[], []⟩ : RHeap T).root.1.push (⟨[], []⟩ : RHeap T).root.2 (some q) none).2] } with
      | .error e => .error e
      | .ok (.next s) => .ok (.ok, s.visits, s.calls)
      | .ok (.ret s r) => .ok (r, s.visits, s.calls) := by
  unfold runGlrParserOn
  rw [hd.parse]
  simp only
  unfold callD dParse
  rw [d_next _ _ _ (by rw [d_simple, act_gLook])]
  cases hi : inp 0 with
  | error e =>
    rw [d_ret _ _ _ (by rw [d_simple, act_gNext]; simp only [hi]; rfl)]
    rfl
  | ok x =>
    rw [d_next _ _ _ (by rw [d_simple, act_gNext]; simp only [hi]; rfl), d_next _ _ _ (by rw [d_simple, act_gRoot]),
      d_next _ _ _ (by rw [d_simple, act_gEntry]), d_next _ _ _ (by rw [d_simple, act_gStacks])]
    rw [end_loop]
    simp only [List.nil_append, Nat.zero_add]
    generalize textLoop text inp n _ = r
    cases r with
    | error e => rfl
    | ok r => cases r <;> rfl

end

section
variable {text : List Char} {q : Nat} (hd : HasDriver text q) {variants : List (List Char)} {g : Grammar} {m : GlrMachine} {visits : List (Nat × List Char)}
variable (hf : DCallsFit (T := T) (rustGlrCalls text) variants g m visits) (hq : m.entry = q)

include hd hf hq in
/-- `parse`, when the token function does not fail -/
theorem run_glrParser (input : Nat → Tok × T) (n : Nat) :
    (runGlrParserOn hGss text (fun i => .ok (glrInput variants input i)) n : Res (RGlrEnd T ε × List (RVisit T) × Nat)) = rustGlrOutcome variants visits input (glrParse m input n) := by
  rw [run_parse hd]
  simp only
  subst hq
  have key := run_loop (inp := fun i => (.ok (glrInput variants input i) : Except ε _)) (combine := rustCombine text) hf n (reduces_fit hd hf n) (combine_fits hd) input (n, n) (fun _ => rfl) n _ _ 0 [] _
    (start_inv (visits := visits) hf (glrInput variants input 0) { heap := ((⟨[], []⟩ : RHeap T).root.1.push (⟨[], []⟩ : RHeap T).root.2 (some m.entry) none).1, calls := 1, lookahead := some [glrInput variants input 0], root := some (⟨[], []⟩ : RHeap T).root.2, stack := some ((⟨[], []⟩ : RHeap T).root.1.push (⟨[], []⟩ : RHeap T).root.2 (some m.entry) none).2, active := some [((⟨[], []⟩ : RHeap T).root.1.push (⟨[], []⟩ : RHeap T).root.2 (some m.entry) none).2] } rfl rfl rfl rfl rfl)
  change glrLoopOut variants visits input (textLoop text _ n _) (glrParse m input n) at key
  cases hr : glrParse m input n with
  | ok events pos =>
    rw [hr] at key
    obtain ⟨s, k1, k2, k3⟩ := key
    rw [k1]
    simp only [rustGlrOutcome, k2, k3]
  | unexpected events pos es =>
    rw [hr] at key
    obtain ⟨s, k1, k2, k3⟩ := key
    rw [k1]
    simp only [rustGlrOutcome, k2, k3]
  | panic events pos =>
    rw [hr] at key
    simp only [glrLoopOut] at key
    rw [key]
    rfl
  | running events pos =>
    rw [hr] at key
    simp only [glrLoopOut] at key
    rw [key]
    rfl

include hd hf hq in
/-- `parse`, when the token function fails at call `k` -/
theorem run_glrParser_error (input : Nat → Tok × T) (inp : Nat → Except ε (List Char × T)) (k : Nat) (e : ε) (hi : ∀ i < k, inp i = .ok (glrInput variants input i)) (he : inp k = .error e) (n : Nat)
    (hn : ∀ a b, glrParse m input n ≠ .panic a b) :
    ((resultAt (glrParse m input n)).2 < k → runGlrParserOn hGss text inp n = rustGlrOutcome variants visits input (glrParse m input n)) ∧
    (k ≤ (resultAt (glrParse m input n)).2 → ∃ pre, pre <+: (resultAt (glrParse m input n)).1 ∧ runGlrParserOn hGss text inp n = .ok (.lexerError e, pre.map (visitOf variants visits), k + 1)) := by
  rw [run_parse hd]
  by_cases h0 : k = 0
  · subst h0
    rw [he]
    exact ⟨fun h => absurd h (Nat.not_lt_zero _), fun _ => ⟨[], List.nil_prefix, rfl⟩⟩
  have hk : 0 < k := Nat.pos_of_ne_zero h0
  rw [hi 0 hk]
  simp only
  subst hq
  have key := run_loopError (inp := inp) (combine := rustCombine text) hf n (reduces_fit hd hf n) (combine_fits hd) input (n, n) k e hi he n _ _ 0 [] _
    (start_inv (visits := visits) hf (glrInput variants input 0) { heap := ((⟨[], []⟩ : RHeap T).root.1.push (⟨[], []⟩ : RHeap T).root.2 (some m.entry) none).1, calls := 1, lookahead := some [glrInput variants input 0], root := some (⟨[], []⟩ : RHeap T).root.2, stack := some ((⟨[], []⟩ : RHeap T).root.1.push (⟨[], []⟩ : RHeap T).root.2 (some m.entry) none).2, active := some [((⟨[], []⟩ : RHeap T).root.1.push (⟨[], []⟩ : RHeap T).root.2 (some m.entry) none).2] } rfl rfl rfl rfl rfl) hk hn
  change ((resultAt (glrParse m input n)).2 < k → glrLoopOut variants visits input (textLoop text _ n _) (glrParse m input n)) ∧
    (k ≤ (resultAt (glrParse m input n)).2 → ∃ s' pre, textLoop text _ n _ = _ ∧ _ ∧ _ ∧ pre <+: (resultAt (glrParse m input n)).1) at key
  refine ⟨fun h => ?_, fun h => ?_⟩
  · have key := key.1 h
    cases hr : glrParse m input n with
    | ok events pos =>
      rw [hr] at key
      obtain ⟨s, k1, k2, k3⟩ := key
      rw [k1]
      simp only [rustGlrOutcome, k2, k3]
    | unexpected events pos es =>
      rw [hr] at key
      obtain ⟨s, k1, k2, k3⟩ := key
      rw [k1]
      simp only [rustGlrOutcome, k2, k3]
    | panic events pos => exact absurd hr (hn _ _)
    | running events pos =>
      rw [hr] at key
      simp only [glrLoopOut] at key
      rw [key]
      rfl
  · obtain ⟨s, pre, k1, k2, k3, k4⟩ := key.2 h
    exact ⟨pre, k4, by rw [k1]; simp only [k2, k3]⟩

end

/-- `parse` with the functions of module `gss` in the text is `parse` with those of the model -/
theorem run_text {rs : RuleSet} {g : Grammar} (hg : g.WordNames) (ht : TagWords rs) {p : GlrProg} {text : List Char} (h : rustGlrFile rs g p = .ok text) (inp : Nat → Except ε (List Char × T)) (n : Nat) :
    runGlrParser text inp n = runGlrParserOn hGss text inp n := by
  unfold runGlrParser
  rw [text_gss (gssBody_of hg ht h)]

end Verif
