import Verif.Props.Output

/-!
# C90: what a run that fails leaves in the target directory

lapex writes the token files and the lexer before it looks at the grammar (lapex/src/lib.rs:126-151). So a run that ends with a report leaves new token and lexer files beside the parser of an earlier run.
-/

set_option autoImplicit false

namespace Verif

/-- The run ends with a report, or with a panic in a part that writes no file. -/
def Ending.EndsEarly : Ending → Prop
  | .err _ => True
  | .panic at_ => at_ = .parse ∨ at_ = .lexer ∨ at_ = .report ∨ at_ = .grammar ∨ at_ = .parserTable
  | _ => False

/-- the files of the tokens -/
def tokenFileNames : Language → List String
  | .rust => ["tokens.rs"]
  | .cpp => ["tokens.h", "tokens.cpp"]

/-- the files of the lexer -/
def lexerFileNames : Language → List String
  | .rust => ["lexer.rs"]
  | .cpp => ["lexer.h", "lexer.cpp"]

/-- the report says that token rules have equal precedences -/
def Ending.isTie : Ending → Bool
  | .err [.precedence _] => true
  | _ => false

variable {parse : List Char → Res SpannedRules} {fuel : Nat} {genLexer : Bool} {alg : Algorithm} {genTable : Bool} {lang : Language} {path : List Char} {contents : Option (List Char)}
  {ws : List Written} {ending : Ending}

theorem tokenFile_ok {tokens : List TokenRule} {w : Written} (h : tokenFile lang tokens = .ok w) : ∃ vs, w = .tokens vs := by
  unfold tokenFile at h
  cases lang with
  | rust => obtain ⟨vs, _, h2⟩ := res_bind_ok.mp h; cases h2; exact ⟨vs, rfl⟩
  | cpp => cases h; exact ⟨_, rfl⟩

theorem writeFile_early {file : Res Written} {written : List Written} (h : writeFile file written = (ws, ending)) (he : ending.EndsEarly) : False := by
  unfold writeFile at h
  split at h
  · rename_i e
    cases h
    cases e <;> simp [Ending.failed, Ending.EndsEarly] at he
  · cases h
    exact he

theorem writeParser_early {g : Grammar} {tb : LRTable} {file : Res Written} {written : List Written} (h : writeParser genTable g tb file written = (ws, ending)) (he : ending.EndsEarly) : False := by
  unfold writeParser at h
  split at h
  · split at h
    · rename_i e _
      cases h
      cases e <;> simp [Ending.failed, Ending.EndsEarly] at he
    · exact writeFile_early h he
  · exact writeFile_early h he

theorem mapM_no_tie {text : List Char} {prods : List (Spanned ProdRule)} {g : Grammar} {cs : List Conflict} {reports : List Report}
    (h : cs.mapM (conflictReport path text prods g) = .ok reports) : (Ending.err reports).isTie = false := by
  have hf := mapM_forall₂ (P := fun _ rep => ∀ xs, rep ≠ Report.precedence xs) h (by
    intro c _ rep hr xs e
    subst e
    cases c with
    | shiftReduce =>
      unfold conflictReport at hr
      obtain ⟨_, _, hr⟩ := res_bind_ok.mp hr
      obtain ⟨_, _, hr⟩ := res_bind_ok.mp hr
      obtain ⟨_, _, hr⟩ := res_bind_ok.mp hr
      cases hr
    | reduceReduce =>
      unfold conflictReport at hr
      obtain ⟨_, _, hr⟩ := res_bind_ok.mp hr
      cases hr)
  unfold Ending.isTie
  split
  · rename_i xs e
    cases e
    cases hf with
    | cons h _ => exact absurd rfl (h xs)
  · rfl

theorem generateParser_early {text : List Char} {rules : SpannedRules} {written : List Written} (h : generateParser fuel lang alg genTable path text rules written = (ws, ending))
    (he : ending.EndsEarly) : ws = written ∧ ending.isTie = false := by
  have lr : ∀ kind g, lrArm fuel lang kind genTable path text rules g written = (ws, ending) → ws = written ∧ ending.isTie = false := by
    intro kind g h
    unfold lrArm at h
    split at h
    · rename_i e _; cases h; exact ⟨rfl, by cases e <;> rfl⟩
    · exact (writeParser_early h he).elim
    · split at h
      · rename_i e _; cases h; exact ⟨rfl, by cases e <;> rfl⟩
      · rename_i hm; cases h; exact ⟨rfl, mapM_no_tie hm⟩
    · cases h; exact ⟨rfl, rfl⟩
  unfold generateParser at h
  split at h
  · cases h; exact ⟨rfl, rfl⟩
  · split at h
    · unfold llArm at h
      split at h
      · cases h; exact ⟨rfl, rfl⟩
      · cases h; exact ⟨rfl, rfl⟩
      · exact (writeFile_early h he).elim
    · exact lr _ _ h
    · exact lr _ _ h
    · exact lr _ _ h
    · unfold glrArm at h
      split at h
      · rename_i e _; cases h; exact ⟨rfl, by cases e <;> rfl⟩
      · exact (writeParser_early h he).elim
      · exact (writeParser_early h he).elim
      · cases h; exact ⟨rfl, rfl⟩

/-- what such a run has written -/
theorem early_written (h : generate parse fuel genLexer alg genTable lang path contents = (ws, ending)) (he : ending.EndsEarly) :
    ws = [] ∧ (contents = none ∨ ending = .panic .parse) ∨
    contents ≠ none ∧ (∃ vs, ws = [.tokens vs] ∧ (genLexer = false ∨ ending.isTie = true ∨ ∃ a, ending = .panic a)) ∨
    contents ≠ none ∧ (∃ vs t, ws = [.tokens vs, .lexer t] ∧ genLexer = true ∧ ending.isTie = false) := by
  unfold generate at h
  split at h
  · cases h; exact .inl ⟨rfl, .inl rfl⟩
  · split at h
    · rename_i e _
      cases h
      cases e
      · exact .inl ⟨rfl, .inr rfl⟩
      · exact he.elim
    · split at h
      · rename_i e _
        cases h
        cases e <;> simp [Ending.failed, Ending.EndsEarly] at he
      · rename_i toks ht
        obtain ⟨vs, rfl⟩ := tokenFile_ok ht
        split at h
        · rename_i hl
          split at h
          · rename_i e _
            cases h
            cases e
            · exact .inr (.inl ⟨by simp, vs, rfl, .inr (.inr ⟨_, rfl⟩)⟩)
            · exact he.elim
          · split at h
            · rename_i e _
              cases h
              cases e
              · exact .inr (.inl ⟨by simp, vs, rfl, .inr (.inr ⟨_, rfl⟩)⟩)
              · exact he.elim
            · rename_i hr
              cases h
              refine .inr (.inl ⟨by simp, vs, rfl, .inr (.inl ?_)⟩)
              unfold precedenceReport at hr
              obtain ⟨xs, _, hr⟩ := res_bind_ok.mp hr
              cases hr
              rfl
          · obtain ⟨rfl, h2⟩ := generateParser_early h he
            exact .inr (.inr ⟨by simp, vs, _, rfl, hl, h2⟩)
        · rename_i hl
          obtain ⟨rfl, h2⟩ := generateParser_early h he
          exact .inr (.inl ⟨by simp, vs, rfl, .inl (by simpa using hl)⟩)

theorem early_names (h : generate parse fuel genLexer alg genTable lang path contents = (ws, ending)) (he : ending.EndsEarly) {n : FileName} (hn : n ∈ ws.flatMap (Written.fileNames lang)) :
    n ∈ (tokenFileNames lang).map String.toList ∨ genLexer = true ∧ n ∈ (lexerFileNames lang).map String.toList := by
  rcases early_written h he with ⟨rfl, _⟩ | ⟨_, vs, rfl, _⟩ | ⟨_, vs, t, rfl, hl, _⟩
  · cases hn
  · cases lang <;> exact .inl (by simpa [Written.fileNames, tokenFileNames] using hn)
  · cases lang
    · simp only [Written.fileNames, List.flatMap_cons, List.flatMap_nil, List.append_nil, List.mem_append] at hn
      exact hn.imp (fun h => by simpa [tokenFileNames] using h) fun h => ⟨hl, by simpa [lexerFileNames] using h⟩
    · simp only [Written.fileNames, List.flatMap_cons, List.flatMap_nil, List.append_nil, List.mem_append] at hn
      exact hn.imp (fun h => by simpa [tokenFileNames] using h) fun h => ⟨hl, by simpa [lexerFileNames] using h⟩

/-- **C90**. When the run ends with a report or panics before the parser is written, all files but those of the tokens and of the lexer are as before: the parser and the table of an earlier run are neither
changed nor removed. This is so on every disk, and if the process is killed at any time (`OldOrBegun`, C86_faults, C86_killed). -/
theorem C90_parser (h : generate parse fuel genLexer alg genTable lang path contents = (ws, ending)) (he : ending.EndsEarly) (writes : FileName → Generator) (dir dir' : Dir)
    (hd : OldOrBegun dir ((ws.flatMap (Written.fileNames lang)).map fun n => (n, writes n)) dir') (n : FileName) (ht : n ∉ (tokenFileNames lang).map String.toList)
    (hl : genLexer = true → n ∉ (lexerFileNames lang).map String.toList) : dir' n = dir n := by
  rcases hd n with h' | ⟨g, p, hm, _⟩
  · exact h'
  · obtain ⟨n', h1, h2⟩ := List.mem_map.mp hm
    cases h2
    rcases early_names h he h1 with h3 | ⟨h3, h4⟩
    · exact absurd h3 ht
    · exact absurd h4 (hl h3)

/-- **C90**. When the grammar file cannot be read, or its text is not in the syntax of grammar files, nothing is changed. -/
theorem C90_nothing (h : generate parse fuel genLexer alg genTable lang path contents = (ws, ending)) (hc : contents = none ∨ ∃ text e, contents = some text ∧ parse text = .error e)
    (writes : FileName → Generator) (disk : Disk) (dir : Dir) : writeFiles disk ((ws.flatMap (Written.fileNames lang)).map fun n => (n, writes n)) dir = (dir, true) := by
  have : ws = [] := by
    unfold generate at h
    rcases hc with rfl | ⟨text, e, rfl, hp⟩
    · cases h; rfl
    · simp only [hp] at h
      cases h; rfl
  subst this
  rfl

/-- **C90**. When the run ends with a report about the grammar file, on a disk that takes the files, the files of the tokens are new, those of the lexer are new if one was asked for and the report is not about
its token rules, and all others are as before. So the directory may have the tokens of one grammar and the parser of another: a run that fails is not undone. -/
theorem C90_mixed (reports : List Report) (h : generate parse fuel genLexer alg genTable lang path contents = (ws, .err reports)) (hc : contents ≠ none) (writes : FileName → Generator)
    (hg : ∀ n, (writes n).ends = .ok) (disk : Disk) (hd : disk.Takes ((ws.flatMap (Written.fileNames lang)).map fun n => (n, writes n))) (dir : Dir) :
    ∃ dir', writeFiles disk ((ws.flatMap (Written.fileNames lang)).map fun n => (n, writes n)) dir = (dir', true) ∧
      ∀ n : FileName, dir' n = if n ∈ (tokenFileNames lang).map String.toList ∨ (genLexer = true ∧ (Ending.err reports).isTie = false ∧ n ∈ (lexerFileNames lang).map String.toList)
        then some (writes n).output else dir n := by
  have hnames : ws.flatMap (Written.fileNames lang) = (tokenFileNames lang).map String.toList ++
      (if genLexer = true ∧ (Ending.err reports).isTie = false then (lexerFileNames lang).map String.toList else []) := by
    rcases early_written h trivial with ⟨_, h1 | h1⟩ | ⟨_, vs, rfl, h1⟩ | ⟨_, vs, t, rfl, h1, h2⟩
    · exact absurd h1 hc
    · cases h1
    · rw [if_neg]
      · cases lang <;> rfl
      · rintro ⟨h2, h3⟩
        rcases h1 with h1 | h1 | ⟨a, h1⟩
        · rw [h1] at h2; cases h2
        · rw [h1] at h3; cases h3
        · cases h1
    · rw [if_pos ⟨h1, h2⟩]
      cases lang <;> rfl
  obtain ⟨dir', h1, h2, h3⟩ := C86_run disk _ hd (fun f hf => by
    obtain ⟨n, _, rfl⟩ := List.mem_map.mp hf
    exact hg n) (by
    rw [List.map_map]
    simp only [Function.comp_def, List.map_id']
    rw [hnames]
    split <;> cases lang <;> decide) dir
  refine ⟨dir', h1, fun n => ?_⟩
  have hiff : (n ∈ (tokenFileNames lang).map String.toList ∨ (genLexer = true ∧ (Ending.err reports).isTie = false ∧ n ∈ (lexerFileNames lang).map String.toList)) ↔
      n ∈ ws.flatMap (Written.fileNames lang) := by
    rw [hnames, List.mem_append]
    split
    · rename_i hh; simp only [hh, true_and]
    · rename_i hh
      rw [not_and] at hh
      refine or_congr Iff.rfl ⟨fun h => absurd h.2.1 (hh h.1), fun h => by cases h⟩
  simp only [hiff]
  split
  · rename_i hm
    exact h2 n _ (List.mem_map.mpr ⟨n, hm, rfl⟩)
  · rename_i hm
    refine h3 n (fun g hg' => hm ?_)
    obtain ⟨n', h', he⟩ := List.mem_map.mp hg'
    cases he
    exact h'

/-! ## Examples -/

/-- `entry s; token A = "a"; prod s = A; prod s = A;` has a conflict: the new tokens and lexer are beside the old parser -/
example : ∃ ws reports dir', generate (fun _ => .ok (twiceOut ['a'] 3)) 100 true .lr1 false .rust "x.lapex".toList (some "entry s; token A = \"a\"; prod s = A; prod s = A;".toList) = (ws, .err reports) ∧
    writeFiles ⟨fun _ => true, fun _ => 1⟩ ((ws.flatMap (Written.fileNames .rust)).map fun n => (n, ⟨[[1]], .ok⟩)) (fun _ => some [0]) = (dir', true) ∧
    dir' "tokens.rs".toList = some [1] ∧ dir' "lexer.rs".toList = some [1] ∧ dir' "parser.rs".toList = some [0] := by
  obtain ⟨reports, hr⟩ : ∃ reports, (generate (fun _ => .ok (twiceOut ['a'] 3)) 100 true .lr1 false .rust "x.lapex".toList (some "entry s; token A = \"a\"; prod s = A; prod s = A;".toList)).2 = .err reports ∧
      (Ending.err reports).isTie = false := by
    have : (match (generate (fun _ => .ok (twiceOut ['a'] 3)) 100 true .lr1 false .rust "x.lapex".toList (some "entry s; token A = \"a\"; prod s = A; prod s = A;".toList)).2 with
      | .err reports => !(Ending.err reports).isTie
      | _ => false) = true := by decide +kernel
    split at this
    · rename_i reports e
      exact ⟨reports, e, by simpa using this⟩
    · cases this
  have h : generate (fun _ => .ok (twiceOut ['a'] 3)) 100 true .lr1 false .rust "x.lapex".toList (some "entry s; token A = \"a\"; prod s = A; prod s = A;".toList) = (_, .err reports) := Prod.ext rfl hr.1
  obtain ⟨dir', h1, h2⟩ := C90_mixed reports h (by simp) (fun _ => ⟨[[1]], .ok⟩) (fun _ => rfl) ⟨fun _ => true, fun _ => 1⟩ (by
    intro f hf
    obtain ⟨n, _, rfl⟩ := List.mem_map.mp hf
    exact ⟨rfl, Nat.le_refl 1⟩) (fun _ => some [0])
  refine ⟨_, reports, dir', h, h1, ?_, ?_, ?_⟩
  · rw [h2, if_pos (.inl (by decide))]; rfl
  · rw [h2, if_pos (.inr ⟨rfl, hr.2, by decide⟩)]; rfl
  · rw [h2, if_neg]
    rintro (h3 | ⟨_, _, h3⟩) <;> revert h3 <;> decide

/-- the hypotheses of `C90_parser`, with a process killed while it writes the lexer -/
example : ∃ ws reports dir', generate (fun _ => .ok (twiceOut ['a'] 3)) 100 true .lr1 false .cpp "x.lapex".toList (some "entry s; token A = \"a\"; prod s = A; prod s = A;".toList) = (ws, .err reports) ∧
    Killed (fun _ => some [0]) ((ws.flatMap (Written.fileNames .cpp)).map fun n => (n, ⟨[[1]], .ok⟩)) dir' ∧ dir' "lexer.h".toList = some [] ∧ dir' "parser.cpp".toList = some [0] := by
  obtain ⟨reports, hr⟩ : ∃ reports, (generate (fun _ => .ok (twiceOut ['a'] 3)) 100 true .lr1 false .cpp "x.lapex".toList (some "entry s; token A = \"a\"; prod s = A; prod s = A;".toList)).2 = .err reports := by
    have : (match (generate (fun _ => .ok (twiceOut ['a'] 3)) 100 true .lr1 false .cpp "x.lapex".toList (some "entry s; token A = \"a\"; prod s = A; prod s = A;".toList)).2 with
      | .err _ => true
      | _ => false) = true := by decide +kernel
    split at this
    · rename_i reports e
      exact ⟨reports, e⟩
    · cases this
  have h : generate (fun _ => .ok (twiceOut ['a'] 3)) 100 true .lr1 false .cpp "x.lapex".toList (some "entry s; token A = \"a\"; prod s = A; prod s = A;".toList) = (_, .err reports) := Prod.ext rfl hr
  have hw : (generate (fun _ => .ok (twiceOut ['a'] 3)) 100 true .lr1 false .cpp "x.lapex".toList (some "entry s; token A = \"a\"; prod s = A; prod s = A;".toList)).1.flatMap (Written.fileNames .cpp) =
      ["tokens.h".toList, "tokens.cpp".toList, "lexer.h".toList, "lexer.cpp".toList] := by decide +kernel
  have hk : Killed (fun _ => some [0]) (["tokens.h".toList, "tokens.cpp".toList, "lexer.h".toList, "lexer.cpp".toList].map fun n => (n, (⟨[[1]], .ok⟩ : Generator))) _ :=
    .within 2 "lexer.h".toList ⟨[[1]], .ok⟩ 1 9 rfl
  refine ⟨_, reports, _, h, by rw [hw]; exact hk, by decide, ?_⟩
  exact C90_parser h trivial (fun _ => ⟨[[1]], .ok⟩) _ _ (C86_killed _ _ _ (by rw [hw]; exact hk)) "parser.cpp".toList (by decide) (fun _ => by decide)

end Verif
