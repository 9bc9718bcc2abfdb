import Verif.Model.OnDisk
import Verif.Props.Output
import Verif.Props.RustProgram
import Verif.Props.CppProgram
import Verif.Props.CppLLProgram
import Verif.Props.CppVisitor
import Verif.Props.Template
import Verif.Proofs.Hir

/-!
# C87: from the command to the program

What is in the target directory after `lapex generate` has returned Ok, read as a program. The disk takes the files; what was in the directory before does not matter, be it empty, from another grammar,
or left behind by a run that was killed (C86).
-/

set_option autoImplicit false

namespace Verif

/-- the file has this text, in UTF-8 -/
def Dir.Reads (d : Dir) (name : String) (text : List Char) : Prop := d name.toList = some (utf8 text)

/-- A file has at most one text. -/
theorem C87_reads {d : Dir} {name : String} {a b : List Char} (ha : d.Reads name a) (hb : d.Reads name b) : a = b := by
  unfold Dir.Reads at ha hb
  rw [ha] at hb
  have h := Option.some.inj hb
  refine utf8Encode_inj ?_
  unfold List.utf8Encode
  unfold utf8 at h
  rw [h]

/-- names that give identifiers of Rust, different ones for different rules (C42) -/
structure RuleSet.RustNames (rs : RuleSet) : Prop where
  words : rs.WordNames
  tags : TagWords rs
  tokens : ∀ n ∈ rs.tokens, GoodName n.toList
  tokensDiffer : rs.tokens.Pairwise (fun a b => ¬ SameName a.toList b.toList)
  prods : ∀ p ∈ rs.prods, GoodName p.name.toList
  prodsDiffer : ∀ p ∈ rs.prods, ∀ q ∈ rs.prods, SameName p.name.toList q.name.toList → p.name = q.name
  notAnon : ∀ p ∈ rs.prods, ∀ n, ¬ SameName p.name.toList ("anon".toList ++ decimal n)

/-- the token rules are as they should be: no empty sequence or class, and no rule matches the empty text -/
def SoundTokens (rules : List TokenRule) : Prop := ∀ r ∈ rules, (r.NoEmptySeq ∧ r.Useful) ∧ ¬ r.Matches []

section
variable {split : List UInt8 → List (List UInt8)} (hsplit : ∀ b, (split b).flatten = b)

include hsplit in
/-- the contents of the files, if all texts are there -/
theorem onDisk_reads {files : List (FileName × Res (List Char × WriteStatus))} (hn : (files.map (·.1)).Nodup) (hok : ∀ f ∈ files, ∃ t, f.2 = .ok (t, .ok)) (disk : Disk)
    (ht : disk.Takes (files.map fun x => (x.1, textGenerator split x.2))) (dir : Dir) :
    ∃ dir', writeFiles disk (files.map fun x => (x.1, textGenerator split x.2)) dir = (dir', true) ∧ (∀ (n : String) t, (n.toList, .ok (t, .ok)) ∈ files → dir'.Reads n t) ∧
      ∀ n, n ∉ files.map (·.1) → dir' n = dir n := by
  obtain ⟨dir', h1, h2, h3⟩ := C86_run disk _ ht (by
    intro f hf
    obtain ⟨x, hx, rfl⟩ := List.mem_map.mp hf
    obtain ⟨t, e⟩ := hok x hx
    simp [e, textGenerator]) (by
    rw [List.map_map]
    exact hn) dir
  refine ⟨dir', h1, fun n t hm => ?_, fun n hm => h3 n ?_⟩
  · have := h2 n.toList (textGenerator split (.ok (t, .ok))) (List.mem_map.mpr ⟨_, hm, rfl⟩)
    unfold Dir.Reads
    rw [this]
    simp [textGenerator, Generator.output, hsplit, utf8]
  · intro g hg
    obtain ⟨x, hx, he⟩ := List.mem_map.mp hg
    refine hm (List.mem_map.mpr ⟨x, hx, ?_⟩)
    exact congrArg Prod.fst he

end

/-! ## Rust -/

/-- The program accepts exactly the texts whose tokens, those to be left out removed, are in `L`: for every choice of tokens to be left out and every text there is one and only one token function made
of the lexer, and with it the parser returns `Ok` iff the text is to be accepted. Given `ends`, the parser also comes to an end for every text, with `Ok` or an error. -/
def RustAccepts (toks lexer parser : List Char) (rules : List TokenRule) (L : List Nat → Prop) (ends : Prop) : Prop :=
  ∃ variants, rustEnum "TokenType".toList toks = some variants ∧ ∀ skip : List Char → Bool, skip "EndOfFile".toList = false → ∀ src, ∃ inp, TextFed lrToken lexer skip src inp ∧
    (∀ inp', TextFed lrToken lexer skip src inp' → inp' = inp) ∧
    ((∃ n visits calls, runRustParser parser inp n = .ok (.ok, visits, calls)) ↔ ∃ ts, TextTokens rules src ts ∧ L ((kept (skipped variants skip) ts).map (·.1))) ∧
    (ends → ∃ bound r, ∀ n, bound ≤ n → runRustParser parser inp n = .ok r)

/-- The same for a GLR parser, with exactly one parse tree. It panics for exactly the texts with several parse trees, and comes to an end for all. -/
def RustGlrAccepts (toks lexer parser : List Char) (rules : List TokenRule) (g : Grammar) : Prop :=
  ∃ variants, rustEnum "TokenType".toList toks = some variants ∧ ∀ skip : List Char → Bool, skip "EndOfFile".toList = false → ∀ src, ∃ inp, TextFed glrToken lexer skip src inp ∧
    (∀ inp', TextFed glrToken lexer skip src inp' → inp' = inp) ∧
    ((∃ n visits calls, runGlrParser parser inp n = .ok (.ok, visits, calls)) ↔
      ∃ ts tree, TextTokens rules src ts ∧ IsParseOf g (kept (skipped variants skip) ts) tree ∧ ∀ tree', IsParseOf g (kept (skipped variants skip) ts) tree' → tree' = tree) ∧
    ((∃ n, runGlrParser parser inp n = .error .panic) ↔
      ∃ ts a b, TextTokens rules src ts ∧ a ≠ b ∧ IsParseOf g (kept (skipped variants skip) ts) a ∧ IsParseOf g (kept (skipped variants skip) ts) b) ∧
    ∃ bound, ∀ n, bound ≤ n → runGlrParser parser inp n = .error .panic ∨ ∃ r, runGlrParser parser inp n = .ok r

/-- each production rule matches some list of tokens -/
def RuleSet.EachMatches (rs : RuleSet) : Prop := ∀ q ∈ rs.prods, ∃ w, Den rs (.rule q.name) w

section
variable (parse : List Char → Res SpannedRules) (fuel : Nat) (genTable : Bool) (path : List Char) (contents : Option (List Char)) (ws : List Written)
variable (split : List UInt8 → List (List UInt8)) (hsplit : ∀ b, (split b).flatten = b) (debug : Nat → List Char) (label : List Char)

include hsplit in
/-- C87. Rust, LR(1) or LALR: the three files in the directory are a program that accepts exactly the language of the grammar file. -/
theorem C87_rust (alg : Algorithm) (kind : LRKind) (hk : alg.kind = some kind) (hla : kind.hasLa = true) (h : generate parse fuel true alg genTable .rust path contents = (ws, .ok)) :
    ∃ text rules g, contents = some text ∧ parse text = .ok rules ∧ Grammar.fromRuleSet rules.ruleSet = .ok g ∧
      (rules.ruleSet.RustNames → rules.ruleSet.Fine → SoundTokens (rules.tokens.map (·.inner)) → rules.ruleSet.EntryUnused ∨ kind = .lr1 →
        ∀ disk : Disk, disk.Takes (outputFiles split .rust rules.ruleSet (rules.tokens.map (·.inner)) g debug label ws) → ∀ dir, ∃ dir' toks lexer parser,
          writeFiles disk (outputFiles split .rust rules.ruleSet (rules.tokens.map (·.inner)) g debug label ws) dir = (dir', true) ∧
          dir'.Reads "tokens.rs" toks ∧ dir'.Reads "lexer.rs" lexer ∧ dir'.Reads "parser.rs" parser ∧
          (∀ n, n ∉ (outputNames true alg genTable .rust).map String.toList → dir' n = dir n) ∧
          RustAccepts toks lexer parser (rules.tokens.map (·.inner)) (Den rules.ruleSet (.rule rules.entry.inner)) rules.ruleSet.EachMatches) := by
  obtain ⟨text, rules, g, vs, lexer, table, parser, tb, h1, h2, h3, h4, h5, h6, h7, _⟩ := C65_ok _ _ _ _ _ _ _ _ _ h
  rw [if_pos rfl] at h6
  obtain ⟨t, n, rfl, h6⟩ := h6
  refine ⟨text, rules, g, h1, h2, h3, ?_⟩
  intro hnames hfine hsound hent disk htakes dir
  have e := ruleSet_spanned rules
  have htok : rules.ruleSet.tokens = (rules.tokens.map (·.inner)).map (·.name) := by rw [e]; rfl
  generalize hl : Language.rust = lang at h5
  cases h5 with
  | cpp => cases hl
  | glr => cases hk
  | ll => cases hk
  | @rust _ kind' n' tb p hk' hg hp =>
    clear hl
    rw [hk] at hk'
    cases hk'
    have htb : LRTableFor g kind tb := ⟨false, _, .inl hg⟩
    obtain ⟨toks, ptext, hf⟩ := C75_files rules.ruleSet g h3 hfine.tokens hfine.prods hnames.words hnames.tags tb p hp _ htok hnames.tokens hnames.tokensDiffer hnames.prods hnames.prodsDiffer
      hnames.notAnon
    have hgood : ∀ r ∈ rules.tokens.map (·.inner), GoodName r.name.toList := fun r hr => hnames.tokens _ (by rw [htok]; exact List.mem_map.mpr ⟨r, hr, rfl⟩)
    have hword : ∀ r ∈ rules.tokens.map (·.inner), IsWord r.name.toList := fun r hr => hnames.words.1 _ (by rw [htok]; exact List.mem_map.mpr ⟨r, hr, rfl⟩)
    obtain ⟨ltext, _, hl, _⟩ := (C74_written n _ t h6).1 (fun r hr => goodName_not_bad (hgood r hr))
    have htab : table = [] ∨ ∃ shown, table = [.table shown] := by
      split at h7
      · obtain ⟨_, shown, _, _, h⟩ := h7; exact .inr ⟨shown, h⟩
      · exact .inl h7
    have hfiles : ws.flatMap (Written.texts .rust rules.ruleSet (rules.tokens.map (·.inner)) g debug label) = [("tokens.rs".toList, .ok (toks, .ok)), ("lexer.rs".toList, .ok (ltext, .ok))] ++
        table.flatMap (Written.texts .rust rules.ruleSet (rules.tokens.map (·.inner)) g debug label) ++ [("parser.rs".toList, .ok (ptext, .ok))] := by
      rw [h4]
      simp [Written.texts, noTemplate, hf.tokensFile, hl, hf.parserFile, Except.map]
    unfold outputFiles at htakes ⊢
    rw [hfiles] at htakes ⊢
    obtain ⟨dir', k1, k2, k3⟩ := onDisk_reads hsplit (by
      rcases htab with rfl | ⟨shown, rfl⟩ <;> simp [Written.texts]) (by
      intro f hf
      rcases htab with rfl | ⟨shown, rfl⟩ <;> simp [Written.texts] at hf
      · rcases hf with rfl | rfl | rfl <;> exact ⟨_, rfl⟩
      · rcases hf with rfl | rfl | rfl | rfl <;> exact ⟨_, rfl⟩) disk htakes dir
    refine ⟨dir', toks, ltext, ptext, k1, k2 "tokens.rs" _ (by simp), k2 "lexer.rs" _ (by simp), k2 "parser.rs" _ (by simp), fun m hm => k3 m ?_, ?_⟩
    · rw [← C86_names h, h4] at hm
      intro hc
      refine hm ?_
      rcases htab with rfl | ⟨shown, rfl⟩ <;> simpa [Written.texts, Written.fileNames] using hc
    obtain ⟨ws', _, hv⟩ := rust_variants hf
    refine ⟨_, hv, fun skip heof src => ?_⟩
    obtain ⟨inp, m1, m2⟩ := C78_token_function lrToken h6 hword (fun r hr => (hsound r hr).2) hl hf.tokensFile skip heof src
    refine ⟨inp, m1, m2, ?_⟩
    rw [e] at hf hfine hent ⊢
    obtain ⟨variants, m3, m4⟩ := C78_accepts h6 hl skip heof src hf m1 (fun r hr => (hsound r hr).1) hfine kind hla hent htb
    rw [hv] at m3
    cases m3
    exact ⟨m4, C78_total h6 hl skip heof src hf m1 hfine kind htb (fun r hr => (hsound r hr).2)⟩

include hsplit in
/-- C87. Rust, GLR: the program accepts exactly the texts whose tokens have exactly one parse tree, if no two rules of the grammar are equal and it has neither cycles nor hidden left recursion. -/
theorem C87_rust_glr (h : generate parse fuel true .glr genTable .rust path contents = (ws, .ok)) :
    ∃ text rules g, contents = some text ∧ parse text = .ok rules ∧ Grammar.fromRuleSet rules.ruleSet = .ok g ∧
      (rules.ruleSet.RustNames → rules.ruleSet.Fine → SoundTokens (rules.tokens.map (·.inner)) → rules.ruleSet.EntryUnused → DistinctRules g → NoCycle g → NoHiddenLeftRecursion g →
        ∀ disk : Disk, disk.Takes (outputFiles split .rust rules.ruleSet (rules.tokens.map (·.inner)) g debug label ws) → ∀ dir, ∃ dir' toks lexer parser,
          writeFiles disk (outputFiles split .rust rules.ruleSet (rules.tokens.map (·.inner)) g debug label ws) dir = (dir', true) ∧
          dir'.Reads "tokens.rs" toks ∧ dir'.Reads "lexer.rs" lexer ∧ dir'.Reads "parser.rs" parser ∧
          (∀ n, n ∉ (outputNames true .glr genTable .rust).map String.toList → dir' n = dir n) ∧
          RustGlrAccepts toks lexer parser (rules.tokens.map (·.inner)) g) := by
  obtain ⟨text, rules, g, vs, lexer, table, parser, tb, h1, h2, h3, h4, h5, h6, h7, _⟩ := C65_ok _ _ _ _ _ _ _ _ _ h
  rw [if_pos rfl] at h6
  obtain ⟨t, n, rfl, h6⟩ := h6
  refine ⟨text, rules, g, h1, h2, h3, ?_⟩
  intro hnames hfine hsound hent hd hc hh disk htakes dir
  have e := ruleSet_spanned rules
  have htok : rules.ruleSet.tokens = (rules.tokens.map (·.inner)).map (·.name) := by rw [e]; rfl
  have hpar : ∃ tb p, parser = .rustGlrParser p ∧ LRTableFor g .lalr tb ∧ genGlr g tb = .ok p := by
    generalize ha : Algorithm.glr = alg at h5
    generalize hl : Language.rust = lang at h5
    cases h5 with
    | rust hk => subst ha; cases hk
    | cpp => cases hl
    | ll => cases ha
    | glr h1 h2 => exact ⟨_, _, rfl, h1, h2⟩
  obtain ⟨tb, p, rfl, htb, hp⟩ := hpar
  obtain ⟨toks, ptext, hf⟩ := C76_files rules.ruleSet g h3 hfine.tokens hfine.prods hnames.words hnames.tags tb p hp _ htok hnames.tokens hnames.tokensDiffer hnames.prods hnames.prodsDiffer
    hnames.notAnon
  have hgood : ∀ r ∈ rules.tokens.map (·.inner), GoodName r.name.toList := fun r hr => hnames.tokens _ (by rw [htok]; exact List.mem_map.mpr ⟨r, hr, rfl⟩)
  have hword : ∀ r ∈ rules.tokens.map (·.inner), IsWord r.name.toList := fun r hr => hnames.words.1 _ (by rw [htok]; exact List.mem_map.mpr ⟨r, hr, rfl⟩)
  obtain ⟨ltext, _, hl, _⟩ := (C74_written n _ t h6).1 (fun r hr => goodName_not_bad (hgood r hr))
  have htab : table = [] ∨ ∃ shown, table = [.table shown] := by
    split at h7
    · obtain ⟨_, shown, _, _, h⟩ := h7; exact .inr ⟨shown, h⟩
    · exact .inl h7
  have hfiles : ws.flatMap (Written.texts .rust rules.ruleSet (rules.tokens.map (·.inner)) g debug label) = [("tokens.rs".toList, .ok (toks, .ok)), ("lexer.rs".toList, .ok (ltext, .ok))] ++
      table.flatMap (Written.texts .rust rules.ruleSet (rules.tokens.map (·.inner)) g debug label) ++ [("parser.rs".toList, .ok (ptext, .ok))] := by
    rw [h4]
    simp [Written.texts, noTemplate, hf.tokensFile, hl, hf.parserFile, Except.map]
  unfold outputFiles at htakes ⊢
  rw [hfiles] at htakes ⊢
  obtain ⟨dir', k1, k2, k3⟩ := onDisk_reads hsplit (by
    rcases htab with rfl | ⟨shown, rfl⟩ <;> simp [Written.texts]) (by
    intro f hf
    rcases htab with rfl | ⟨shown, rfl⟩ <;> simp [Written.texts] at hf
    · rcases hf with rfl | rfl | rfl <;> exact ⟨_, rfl⟩
    · rcases hf with rfl | rfl | rfl | rfl <;> exact ⟨_, rfl⟩) disk htakes dir
  refine ⟨dir', toks, ltext, ptext, k1, k2 "tokens.rs" _ (by simp), k2 "lexer.rs" _ (by simp), k2 "parser.rs" _ (by simp), fun m hm => k3 m ?_, ?_⟩
  · rw [← C86_names h, h4] at hm
    intro hc
    refine hm ?_
    rcases htab with rfl | ⟨shown, rfl⟩ <;> simpa [Written.texts, Written.fileNames] using hc
  obtain ⟨ws', _, hv⟩ := glr_variants hf
  refine ⟨_, hv, fun skip heof src => ?_⟩
  obtain ⟨inp, m1, m2⟩ := C78_token_function glrToken h6 hword (fun r hr => (hsound r hr).2) hl hf.tokensFile skip heof src
  refine ⟨inp, m1, m2, ?_⟩
  rw [e] at hf hfine hent
  obtain ⟨variants, m3, m4⟩ := C78_glr_accepts h6 hl skip heof src hf m1 (fun r hr => (hsound r hr).1) (fun r hr => (hsound r hr).2) hfine .lalr rfl (.inl hent) htb hd hc hh
  rw [hv] at m3
  cases m3
  obtain ⟨variants', m5, m6⟩ := C78_glr_panics h6 hl skip heof src hf m1 (fun r hr => (hsound r hr).1) (fun r hr => (hsound r hr).2) hfine .lalr rfl (.inl hent) htb hd hc hh
  rw [hv] at m5
  cases m5
  exact ⟨m4, m6, C78_glr_total h6 hl skip heof src hf m1 (fun r hr => (hsound r hr).1) (fun r hr => (hsound r hr).2) hfine .lalr rfl (.inl hent) htb hd hc hh⟩

end

/-! ## C++ -/

/-- a template without substitutions is written -/
theorem header_written (t : CppTemplate) (ht : t ∈ cppTemplates) (hs : t.supplied = []) : (writeTemplate [] t.text).2 = .ok :=
  (C43_cpp_templates t ht [] (by rw [hs]; intro k hk; cases hk)).2 (by rw [hs]; intro k hk; cases hk)

/-- The program accepts exactly the texts whose tokens, those to be left out removed, are in `L`: for every choice of tokens to be left out and every text there is one and only one token function made
of the lexer, and with it the parser returns without an exception iff the text is to be accepted. Given `ends`, the parser also comes to an end for every text, with or without an exception. -/
def CppAccepts (lexer : List Char) (files : CppFiles) (rules : List TokenRule) (L : List Nat → Prop) (ends : Prop) : Prop :=
  ∀ skip : List Char → Bool, skip "TK_EOF".toList = false ∧ skip "TK_ERR".toList = false → ∀ src, ∃ inp, CppTextFed lexer files.tokensH skip (utf8 src) inp ∧
    (∀ inp', CppTextFed lexer files.tokensH skip (utf8 src) inp' → inp' = inp) ∧
    ((∃ n events pos, runCppParser files inp n = some (.returned events pos)) ↔ ∃ ts, TextTokens rules src ts ∧ L ((kept (cppSkipped rules skip) ts).map (·.1))) ∧
    (ends → ∃ bound r, (∀ n, bound ≤ n → runCppParser files inp n = some r) ∧ ((∃ events pos, r = .returned events pos) ∨ ∃ events pos message, r = .thrown events pos message))

/-- The same for an LL parser, started with the non-terminal `E`, which always comes to an end. -/
def CppLLAccepts (lexer : List Char) (files : CppFiles) (E : Nat) (rules : List TokenRule) (L : List Nat → Prop) : Prop :=
  ∀ skip : List Char → Bool, skip "TK_EOF".toList = false ∧ skip "TK_ERR".toList = false → ∀ src, ∃ inp, CppTextFed lexer files.tokensH skip (utf8 src) inp ∧
    (∀ inp', CppTextFed lexer files.tokensH skip (utf8 src) inp' → inp' = inp) ∧
    ((∃ n events pos, runCppLL files E inp n = some (.returned events pos)) ↔ ∃ ts, TextTokens rules src ts ∧ L ((kept (cppSkipped rules skip) ts).map (·.1))) ∧
    ∃ bound, (∀ n, bound ≤ n → ∃ events pos, runCppLL files E inp n = some (.returned events pos)) ∨ ∀ n, bound ≤ n → ∃ events pos message, runCppLL files E inp n = some (.thrown events pos message)

section
variable (parse : List Char → Res SpannedRules) (fuel : Nat) (genTable : Bool) (path : List Char) (contents : Option (List Char)) (ws : List Written)
variable (split : List UInt8 → List (List UInt8)) (hsplit : ∀ b, (split b).flatten = b) (debug : Nat → List Char) (hdebug : ∀ r, '\n' ∉ debug r ∧ (debug r).getLast? ≠ some '\\') (label : List Char)

include hsplit hdebug in
/-- C87. C++, LR(1) or LALR: the files in the directory are a program that accepts exactly the language of the grammar file, if the names are words, the source compiles (C61_compiles) and some text that
is not empty is to be accepted. -/
theorem C87_cpp (alg : Algorithm) (kind : LRKind) (hk : alg.kind = some kind) (hla : kind.hasLa = true) (h : generate parse fuel true alg genTable .cpp path contents = (ws, .ok)) :
    ∃ text rules g src, contents = some text ∧ parse text = .ok rules ∧ Grammar.fromRuleSet rules.ruleSet = .ok g ∧ Written.cppParser src ∈ ws ∧
      (rules.ruleSet.WordNames → src.compile.isSome → rules.ruleSet.Fine → SoundTokens (rules.tokens.map (·.inner)) → rules.ruleSet.EntryUnused ∨ kind = .lr1 →
        (∃ w, w ≠ [] ∧ Den rules.ruleSet (.rule rules.entry.inner) w) →
        ∀ disk : Disk, disk.Takes (outputFiles split .cpp rules.ruleSet (rules.tokens.map (·.inner)) g debug label ws) → ∀ dir, ∃ dir' lexer files visitor,
          writeFiles disk (outputFiles split .cpp rules.ruleSet (rules.tokens.map (·.inner)) g debug label ws) dir = (dir', true) ∧
          dir'.Reads "lexer.cpp" lexer ∧ dir'.Reads "tokens.h" files.tokensH ∧ dir'.Reads "tokens.cpp" files.tokensCpp ∧ dir'.Reads "parser.cpp" files.parserCpp ∧
          dir'.Reads "parser_impl.h" files.parserImplH ∧ dir'.Reads "visitor.h" visitor ∧ cppVisitorFile g = .ok (visitor, .ok) ∧
          (∀ n, n ∉ (outputNames true alg genTable .cpp).map String.toList → dir' n = dir n) ∧
          CppAccepts lexer files (rules.tokens.map (·.inner)) (Den rules.ruleSet (.rule rules.entry.inner)) rules.ruleSet.EachMatches) := by
  obtain ⟨text, rules, g, vs, lexer, table, parser, tb, h1, h2, h3, h4, h5, h6, h7, _⟩ := C65_ok _ _ _ _ _ _ _ _ _ h
  rw [if_pos rfl] at h6
  obtain ⟨t, n, rfl, h6⟩ := h6
  have e := ruleSet_spanned rules
  have hpar : ∃ tb src fuel, parser = .cppParser src ∧ generateTable g false kind fuel = .ok (.noConflicts tb) ∧ genCpp (tokenNames rules.ruleSet) g tb = .ok src := by
    generalize hl : Language.cpp = lang at h5
    cases h5 with
    | rust => cases hl
    | ll => cases hk
    | glr => cases hk
    | @cpp _ kind' n' tb src hk' hg hp =>
      rw [hk] at hk'
      cases hk'
      have en : rules.tokens.map (·.inner.name.toList) = tokenNames rules.ruleSet := by simp [SpannedRules.ruleSet, tokenNames]
      rw [en] at hp
      exact ⟨_, _, _, rfl, hg, hp⟩
  obtain ⟨tb, src, n', rfl, htb, hp⟩ := hpar
  refine ⟨text, rules, g, src, h1, h2, h3, by rw [h4]; simp, ?_⟩
  intro hwords hcomp hfine hsound hent hsome disk htakes dir
  obtain ⟨calls, hcalls, _⟩ := cpp_switch g
  obtain ⟨vtext, hvis⟩ := C80_written _ g h3
  have hword : ∀ r ∈ rules.tokens.map (·.inner), IsWord r.name.toList := fun r hr => hwords.1 _ (by
    rw [e]; exact List.mem_map.mpr ⟨r, hr, rfl⟩)
  have s1 := (C72_lexer_text n _ t h6 debug hword hdebug).1
  obtain ⟨s2, s3, s4, s5⟩ := C73_written (tokenNames rules.ruleSet) src calls
  have s6 := header_written lexerHeaderTemplate (by simp [cppTemplates]) rfl
  have s7 := header_written lrHeaderTemplate (by simp [cppTemplates]) rfl
  have hpf : CppProgramFiles rules.entry.inner (rules.tokens.map (·.inner)) (rules.prods.map (·.inner)) g kind (cppLexerFile (rules.tokens.map (·.inner)) debug t).1
      (cppLRFiles (tokenNames rules.ruleSet) src calls) := by
    rw [e] at hwords hp h3 ⊢
    exact ⟨⟨n, t, debug, h6, hdebug, rfl⟩, h3, hwords, ⟨false, n', tb, src, calls, htb, hp, hcomp, hcalls, rfl⟩⟩
  have htab : table = [] ∨ ∃ shown, table = [.table shown] := by
    split at h7
    · obtain ⟨_, shown, _, _, h⟩ := h7; exact .inr ⟨shown, h⟩
    · exact .inl h7
  have pair : ∀ x : List Char × WriteStatus, x.2 = .ok → x = (x.1, .ok) := fun x hx => Prod.ext rfl hx
  have hfiles : ws.flatMap (Written.texts .cpp rules.ruleSet (rules.tokens.map (·.inner)) g debug label) =
      [("tokens.h".toList, .ok ((cppTokensHeaderFile (tokenNames rules.ruleSet)).1, .ok)), ("tokens.cpp".toList, .ok ((cppTokensFile (tokenNames rules.ruleSet)).1, .ok)),
        ("lexer.h".toList, .ok ((writeTemplate [] lexerHeaderTemplate.text).1, .ok)), ("lexer.cpp".toList, .ok ((cppLexerFile (rules.tokens.map (·.inner)) debug t).1, .ok))] ++
      table.flatMap (Written.texts .cpp rules.ruleSet (rules.tokens.map (·.inner)) g debug label) ++
      [("parser.h".toList, .ok ((writeTemplate [] lrHeaderTemplate.text).1, .ok)), ("parser.cpp".toList, .ok ((cppParserFile src).1, .ok)),
        ("parser_impl.h".toList, .ok ((cppParserImplFile src calls).1, .ok)), ("visitor.h".toList, .ok (vtext, .ok))] := by
    rw [h4, ← pair _ s1, ← pair _ s2, ← pair _ s3, ← pair _ s4, ← pair _ s5, ← pair _ s6, ← pair _ s7]
    simp only [List.flatMap_append, List.flatMap_cons, List.flatMap_nil, List.append_nil, Written.texts, hcalls, hvis, Except.map, tokenNames, List.append_assoc, List.cons_append, List.nil_append]
  unfold outputFiles at htakes ⊢
  rw [hfiles] at htakes ⊢
  obtain ⟨dir', k1, k2, k3⟩ := onDisk_reads hsplit (by
    rcases htab with rfl | ⟨shown, rfl⟩ <;> simp [Written.texts]) (by
    intro f hf
    rcases htab with rfl | ⟨shown, rfl⟩ <;> simp only [Written.texts, List.flatMap_cons, List.flatMap_nil, List.append_nil, List.cons_append, List.nil_append, List.mem_cons, List.not_mem_nil, or_false] at hf
    · rcases hf with rfl | rfl | rfl | rfl | rfl | rfl | rfl | rfl <;> exact ⟨_, rfl⟩
    · rcases hf with rfl | rfl | rfl | rfl | rfl | rfl | rfl | rfl | rfl <;> exact ⟨_, rfl⟩) disk htakes dir
  refine ⟨dir', (cppLexerFile (rules.tokens.map (·.inner)) debug t).1, cppLRFiles (tokenNames rules.ruleSet) src calls, vtext, k1, k2 "lexer.cpp" _ (by simp), k2 "tokens.h" _ (by simp [cppLRFiles]), k2 "tokens.cpp" _ (by simp [cppLRFiles]),
    k2 "parser.cpp" _ (by simp [cppLRFiles]), k2 "parser_impl.h" _ (by simp [cppLRFiles]), k2 "visitor.h" _ (by simp), hvis, fun m hm => k3 m ?_, ?_⟩
  · rw [← C86_names h, h4] at hm
    intro hc
    refine hm ?_
    rcases htab with rfl | ⟨shown, rfl⟩ <;> simpa [Written.texts, Written.fileNames] using hc
  rw [e] at hfine hent hsome hpf ⊢
  intro skip hskip stext
  obtain ⟨inp, m1, m2⟩ := C79_token_function hpf (fun r hr => (hsound r hr).1) skip hskip stext (fun r hr => (hsound r hr).2)
  exact ⟨inp, m1, m2, C79_accepts hpf (fun r hr => (hsound r hr).1) hfine skip hskip stext m1 hla hent hsome,
    C79_total hpf (fun r hr => (hsound r hr).1) hfine skip hskip stext m1 hla hsome (fun r hr => (hsound r hr).2)⟩

include hsplit hdebug in
/-- C87. C++, LL(1): the same, if no rule is predicted at the end of the input and the numbers of the non-terminals have no gaps (C84_gaps), the enumerators being different. `E` is the entry symbol. -/
theorem C87_cpp_ll (h : generate parse fuel true .ll1 genTable .cpp path contents = (ws, .ok)) :
    ∃ text rules g table, contents = some text ∧ parse text = .ok rules ∧ Grammar.fromRuleSet rules.ruleSet = .ok g ∧ Written.cppLLParser table ∈ ws ∧
      (rules.ruleSet.WordNames → rules.ruleSet.NoEmptySequence → rules.ruleSet.tokens.length < 65536 → rules.ruleSet.prods.length ≤ 65536 → SoundTokens (rules.tokens.map (·.inner)) →
        (cppTokenVariants (tokenNames rules.ruleSet)).Nodup → NoGaps g → (∀ r ∈ g.rules, ¬ Predicts g r .eof) → ∀ E, g.entry = .nt E →
        ∃ src, genCppLL (tokenNames rules.ruleSet) g table = .ok src ∧ (src.nonTerminals.Nodup →
        ∀ disk : Disk, disk.Takes (outputFiles split .cpp rules.ruleSet (rules.tokens.map (·.inner)) g debug label ws) → ∀ dir, ∃ dir' lexer files visitor,
          writeFiles disk (outputFiles split .cpp rules.ruleSet (rules.tokens.map (·.inner)) g debug label ws) dir = (dir', true) ∧
          dir'.Reads "lexer.cpp" lexer ∧ dir'.Reads "tokens.h" files.tokensH ∧ dir'.Reads "tokens.cpp" files.tokensCpp ∧ dir'.Reads "parser.cpp" files.parserCpp ∧
          dir'.Reads "parser_impl.h" files.parserImplH ∧ dir'.Reads "visitor.h" visitor ∧ visitor = (cppLLVisitorFile src).1 ∧
          (∀ n, n ∉ (outputNames true .ll1 genTable .cpp).map String.toList → dir' n = dir n) ∧
          CppLLAccepts lexer files E (rules.tokens.map (·.inner)) (Den rules.ruleSet (.rule rules.entry.inner)))) := by
  obtain ⟨text, rules, g, vs, lexer, tfile, parser, tb, h1, h2, h3, h4, h5, h6, h7, _⟩ := C65_ok _ _ _ _ _ _ _ _ _ h
  rw [if_pos rfl] at h6
  obtain ⟨t, n, rfl, h6⟩ := h6
  rw [if_neg (by simp)] at h7
  subst h7
  have e := ruleSet_spanned rules
  have hpar : ∃ table fuel, parser = .cppLLParser table ∧ llGenerateTable g fuel = .ok table := by
    generalize ha : Algorithm.ll1 = alg at h5
    generalize hl : Language.cpp = lang at h5
    cases h5 with
    | rust hk => subst ha; cases hk
    | cpp hk => subst ha; cases hk
    | glr => cases ha
    | ll hg => exact ⟨_, _, rfl, hg⟩
  obtain ⟨table, n', rfl, hg⟩ := hpar
  refine ⟨text, rules, g, table, h1, h2, h3, by rw [h4]; simp, ?_⟩
  intro hwords hes ht hp hsound hv hgap hend E hE
  have hgen : LLGenerated rules.ruleSet g table := ⟨h3, C19_no_empty_right_side _ g h3 hes, ht, hp, hwords, n' + setsFuel g, by omega, llGenerateTable_mono g n' _ table (by omega) hg⟩
  obtain ⟨src, hsrc, s2, s3, s4, s5, s8⟩ := C82_written rules.ruleSet g table hgen label
  refine ⟨src, hsrc, fun hnt disk htakes dir => ?_⟩
  have hword : ∀ r ∈ rules.tokens.map (·.inner), IsWord r.name.toList := fun r hr => hwords.1 _ (by
    rw [e]; exact List.mem_map.mpr ⟨r, hr, rfl⟩)
  have s1 := (C72_lexer_text n _ t h6 debug hword hdebug).1
  have s6 := header_written lexerHeaderTemplate (by simp [cppTemplates]) rfl
  have s7 := header_written llHeaderTemplate (by simp [cppTemplates]) rfl
  have hpf : CppLLProgramFiles rules.entry.inner (rules.tokens.map (·.inner)) (rules.prods.map (·.inner)) g table (cppLexerFile (rules.tokens.map (·.inner)) debug t).1
      (cppLLFiles (tokenNames rules.ruleSet) src label) := by
    rw [e] at hgen hsrc hv ⊢
    exact ⟨⟨n, t, debug, h6, hdebug, rfl⟩, hgen, ⟨src, label, hsrc, hv, hnt, rfl⟩⟩
  have pair : ∀ x : List Char × WriteStatus, x.2 = .ok → x = (x.1, .ok) := fun x hx => Prod.ext rfl hx
  have hfiles : ws.flatMap (Written.texts .cpp rules.ruleSet (rules.tokens.map (·.inner)) g debug label) =
      [("tokens.h".toList, .ok ((cppTokensHeaderFile (tokenNames rules.ruleSet)).1, .ok)), ("tokens.cpp".toList, .ok ((cppTokensFile (tokenNames rules.ruleSet)).1, .ok)),
        ("lexer.h".toList, .ok ((writeTemplate [] lexerHeaderTemplate.text).1, .ok)), ("lexer.cpp".toList, .ok ((cppLexerFile (rules.tokens.map (·.inner)) debug t).1, .ok)),
        ("parser.h".toList, .ok ((writeTemplate [] llHeaderTemplate.text).1, .ok)), ("parser.cpp".toList, .ok ((cppLLParserFile src).1, .ok)),
        ("parser_impl.h".toList, .ok ((cppLLParserImplFile src label).1, .ok)), ("visitor.h".toList, .ok ((cppLLVisitorFile src).1, .ok))] := by
    rw [h4, ← pair _ s1, ← pair _ s2, ← pair _ s3, ← pair _ s4, ← pair _ s5, ← pair _ s6, ← pair _ s7, ← pair _ s8]
    unfold tokenNames at hsrc ⊢
    simp only [List.flatMap_append, List.flatMap_cons, List.flatMap_nil, List.append_nil, Written.texts, hsrc, Except.map, List.cons_append, List.nil_append]
  unfold outputFiles at htakes ⊢
  rw [hfiles] at htakes ⊢
  obtain ⟨dir', k1, k2, k3⟩ := onDisk_reads hsplit (by simp) (by
    intro f hf
    simp only [List.mem_cons, List.not_mem_nil, or_false] at hf
    rcases hf with rfl | rfl | rfl | rfl | rfl | rfl | rfl | rfl <;> exact ⟨_, rfl⟩) disk htakes dir
  refine ⟨dir', (cppLexerFile (rules.tokens.map (·.inner)) debug t).1, cppLLFiles (tokenNames rules.ruleSet) src label, (cppLLVisitorFile src).1, k1, k2 "lexer.cpp" _ (by simp),
    k2 "tokens.h" _ (by simp [cppLLFiles]), k2 "tokens.cpp" _ (by simp [cppLLFiles]), k2 "parser.cpp" _ (by simp [cppLLFiles]), k2 "parser_impl.h" _ (by simp [cppLLFiles]),
    k2 "visitor.h" _ (by simp), rfl, fun m hm => k3 m ?_, ?_⟩
  · rw [← C86_names h, h4] at hm
    intro hc
    refine hm ?_
    simpa [Written.fileNames] using hc
  rw [e] at hpf ⊢
  intro skip hskip stext
  obtain ⟨inp, m1, m2⟩ := C84_token_function hpf (fun r hr => (hsound r hr).1) skip hskip stext (fun r hr => (hsound r hr).2)
  exact ⟨inp, m1, m2, C84_sentences hpf (fun r hr => (hsound r hr).1) skip hskip stext m1 hgap hE hend, C84_total hpf (fun r hr => (hsound r hr).1) skip hskip stext m1 hgap hE (fun r hr => (hsound r hr).2)⟩

end

/-! ## Cases -/

/-- there is a disk that takes the files -/
theorem disk_takes (files : List (FileName × Generator)) : (⟨fun _ => true, fun _ => (files.map fun f => f.2.output.length).sum⟩ : Disk).Takes files := by
  intro f hf
  refine ⟨rfl, ?_⟩
  simp only
  induction files with
  | nil => cases hf
  | cons x xs ih =>
    simp only [List.map_cons, List.sum_cons]
    cases hf with
    | head => omega
    | tail _ hm => have := ih hm; omega

/-- rules as they are read from a file, wherever they stand -/
def spannedRules (entry : String) (rules : List TokenRule) (prods : List ProdRule) : SpannedRules :=
  ⟨⟨⟨⟨1, 1⟩, ⟨1, 1⟩⟩, entry⟩, rules.map fun r => ⟨⟨⟨1, 1⟩, ⟨1, 1⟩⟩, r⟩, prods.map fun r => ⟨⟨⟨1, 1⟩, ⟨1, 1⟩⟩, r⟩⟩

theorem sum_rustNames : (ruleSet "sum" sumTokens sumProds).RustNames where
  words := ⟨fun n hn => (sum_names hn).2, fun x hx => by rw [sum_prods hx]; unfold IsWord; decide⟩
  tags := fun x hx t ht => by rw [sum_prods hx] at ht; cases ht
  tokens := fun n hn => (sum_names hn).1
  tokensDiffer := by
    simp only [ruleSet, sumTokens, List.map_cons, List.map_nil]
    unfold SameName
    decide
  prods := fun x hx => by rw [sum_prods hx]; exact goodName_of (by decide)
  prodsDiffer := fun x hx y hy _ => by rw [sum_prods hx, sum_prods hy]
  notAnon := fun x hx n h => by
    rw [sum_prods hx] at h
    have := congrArg List.head? h
    exact absurd (show some 's' = some 'a' from this) (by decide)

theorem sum_sound : SoundTokens sumTokens := fun r hr => ⟨sumTokens_useful r hr, sumTokens_nonempty r hr⟩

/-- the run for the grammar of sums, and what the program made of the files in the directory does with a text -/
example : ∃ ws dir' toks lexer parser variants inp, generate (fun _ => .ok (spannedRules "sum" sumTokens sumProds)) 60 true .lr1 true .rust "x.lapex".toList (some []) = (ws, .ok) ∧
    (∃ disk files, writeFiles disk files (fun _ => some [7]) = (dir', true)) ∧ dir'.Reads "tokens.rs" toks ∧ dir'.Reads "lexer.rs" lexer ∧ dir'.Reads "parser.rs" parser ∧
    dir' "mod.rs".toList = some [7] ∧ rustEnum "TokenType".toList toks = some variants ∧ TextFed lrToken lexer (· == "TkWs".toList) "1 +11".toList inp ∧
    ((∃ n visits calls, runRustParser parser inp n = .ok (.ok, visits, calls)) ↔
      ∃ ts, TextTokens sumTokens "1 +11".toList ts ∧ Den (ruleSet "sum" sumTokens sumProds) (.rule "sum") ((kept (skipped variants (· == "TkWs".toList)) ts).map (·.1))) := by
  have hr : (generate (fun _ => .ok (spannedRules "sum" sumTokens sumProds)) 60 true .lr1 true .rust "x.lapex".toList (some [])).2 = .ok := by decide +kernel
  have h := (Prod.ext rfl hr : generate (fun _ => .ok (spannedRules "sum" sumTokens sumProds)) 60 true .lr1 true .rust "x.lapex".toList (some []) = (_, .ok))
  obtain ⟨text, rules, g, _, h2, h3, h4⟩ := C87_rust _ _ _ _ _ _ (fun b => [b]) (by simp) (fun _ => []) [] .lr1 .lr1 rfl rfl h
  cases h2
  obtain ⟨dir', toks, lexer, parser, k1, k2, k3, k4, k5, variants, k6, k7⟩ := h4 sum_rustNames sum_fine sum_sound (.inr rfl) _ (disk_takes _) (fun _ => some [7])
  obtain ⟨inp, m1, _, m2, _⟩ := k7 (· == "TkWs".toList) (by decide) "1 +11".toList
  exact ⟨_, dir', toks, lexer, parser, variants, inp, h, ⟨_, _, k1⟩, k2, k3, k4, k5 _ (by decide), k6, m1, m2⟩

/-- the same in C++ -/
example : ∃ ws dir' lexer files, generate (fun _ => .ok (spannedRules "sum" sumTokens sumProds)) 60 true .lr1 false .cpp "x.lapex".toList (some []) = (ws, .ok) ∧
    (∃ disk fs, writeFiles disk fs (fun _ => none) = (dir', true)) ∧ dir'.Reads "lexer.cpp" lexer ∧ dir'.Reads "tokens.h" files.tokensH ∧ dir'.Reads "parser.cpp" files.parserCpp ∧
    CppAccepts lexer files sumTokens (Den (ruleSet "sum" sumTokens sumProds) (.rule "sum")) (ruleSet "sum" sumTokens sumProds).EachMatches := by
  have hr : (generate (fun _ => .ok (spannedRules "sum" sumTokens sumProds)) 60 true .lr1 false .cpp "x.lapex".toList (some [])).2 = .ok ∧
      ((generate (fun _ => .ok (spannedRules "sum" sumTokens sumProds)) 60 true .lr1 false .cpp "x.lapex".toList (some [])).1.all fun w => match w with
        | .cppParser src => src.compile.isSome
        | _ => true) = true := by decide +kernel
  have h := (Prod.ext rfl hr.1 : generate (fun _ => .ok (spannedRules "sum" sumTokens sumProds)) 60 true .lr1 false .cpp "x.lapex".toList (some []) = (_, .ok))
  obtain ⟨text, rules, g, src, _, h2, h3, hm, h4⟩ := C87_cpp _ _ _ _ _ _ (fun b => [b]) (by simp) (fun _ => "x".toList) (fun r => by decide) [] .lr1 .lr1 rfl rfl h
  cases h2
  have hc : src.compile.isSome = true := List.all_eq_true.mp hr.2 _ hm
  obtain ⟨dir', lexer, files, visitor, k1, k2, k3, k4, k5, k6, k7, k8, k9, k10⟩ := h4 sum_rustNames.words hc sum_fine sum_sound (.inr rfl) ⟨_, by simp, sumDen⟩ _ (disk_takes _) (fun _ => none)
  exact ⟨_, dir', lexer, files, h, ⟨_, _, k1⟩, k2, k3, k5, k10⟩

theorem amb_rustNames : (ruleSet "s" sumTokens ambProds).RustNames := by
  have hn : ∀ x ∈ (ruleSet "s" sumTokens ambProds).prods, x.name = "s" ∨ x.name = "e" := by
    intro x hx
    rcases amb_prods hx with rfl | rfl | rfl <;> simp
  refine ⟨⟨fun n hn => (sum_names hn).2, ?_⟩, ?_, fun n hn => (sum_names hn).1, ?_, ?_, ?_, ?_⟩
  · intro x hx
    rcases hn x hx with h | h <;> rw [h] <;> unfold IsWord <;> decide
  · intro x hx t ht
    rcases amb_prods hx with rfl | rfl | rfl <;> cases ht
  · simp only [ruleSet, sumTokens, List.map_cons, List.map_nil]
    unfold SameName
    decide
  · intro x hx
    rcases hn x hx with h | h <;> rw [h] <;> exact goodName_of (by decide)
  · intro x hx y hy h
    rcases hn x hx with h1 | h1 <;> rcases hn y hy with h2 | h2 <;> rw [h1, h2] at h ⊢ <;> revert h <;> unfold SameName <;> decide
  · intro x hx n h
    have := congrArg List.head? h
    rcases hn x hx with h1 | h1 <;> rw [h1] at this
    · exact absurd (show some 's' = some 'a' from this) (by decide)
    · exact absurd (show some 'e' = some 'a' from this) (by decide)

/-- a GLR parser for the ambiguous grammar of sums -/
example : ∃ ws dir' toks lexer parser, generate (fun _ => .ok (spannedRules "s" sumTokens ambProds)) 60 true .glr false .rust "x.lapex".toList (some []) = (ws, .ok) ∧
    (∃ disk fs, writeFiles disk fs (fun _ => none) = (dir', true)) ∧ dir'.Reads "tokens.rs" toks ∧ dir'.Reads "lexer.rs" lexer ∧ dir'.Reads "parser.rs" parser ∧
    RustGlrAccepts toks lexer parser sumTokens ambGrammar := by
  have hr : (generate (fun _ => .ok (spannedRules "s" sumTokens ambProds)) 60 true .glr false .rust "x.lapex".toList (some [])).2 = .ok := by decide +kernel
  have h := (Prod.ext rfl hr : generate (fun _ => .ok (spannedRules "s" sumTokens ambProds)) 60 true .glr false .rust "x.lapex".toList (some []) = (_, .ok))
  obtain ⟨text, rules, g, _, h2, h3, h4⟩ := C87_rust_glr _ _ _ _ _ _ (fun b => [b]) (by simp) (fun _ => []) [] h
  cases h2
  have eg : g = ambGrammar := by
    have := h3.symm.trans (show Grammar.fromRuleSet (spannedRules "s" sumTokens ambProds).ruleSet = .ok ambGrammar from ambGrammar_built)
    exact Except.ok.inj this
  subst eg
  obtain ⟨dir', toks, lexer, parser, k1, k2, k3, k4, k5, k6⟩ := h4 amb_rustNames amb_fine sum_sound amb_unused (by unfold DistinctRules; decide)
    (C54_without_empty_rules _ amb_units.1 amb_units.2).1 (C54_without_empty_rules _ amb_units.1 amb_units.2).2 _ (disk_takes _) (fun _ => none)
  exact ⟨_, dir', toks, lexer, parser, h, ⟨_, _, k1⟩, k2, k3, k4, k6⟩

theorem word_noEmpty : wordRules.NoEmptySequence := by
  intro p hp h
  simp only [wordRules, List.mem_cons, List.not_mem_nil, or_false] at hp
  rcases hp with rfl | rfl
  · cases h with
    | sequence hm h =>
      simp only [List.mem_cons, List.not_mem_nil, or_false] at hm
      rcases hm with rfl | rfl | rfl <;> cases h
  · cases h

/-- an LL parser for `s = lp s rp | x` -/
example : ∃ ws dir' lexer files, generate (fun _ => .ok (spannedRules "s" parenTokens wordRules.prods)) 60 true .ll1 false .cpp "x.lapex".toList (some []) = (ws, .ok) ∧
    (∃ disk fs, writeFiles disk fs (fun _ => none) = (dir', true)) ∧ dir'.Reads "lexer.cpp" lexer ∧ dir'.Reads "tokens.h" files.tokensH ∧ dir'.Reads "parser.cpp" files.parserCpp ∧
    CppLLAccepts lexer files 0 parenTokens (Den wordRules (.rule "s")) := by
  have hr : (generate (fun _ => .ok (spannedRules "s" parenTokens wordRules.prods)) 60 true .ll1 false .cpp "x.lapex".toList (some [])).2 = .ok ∧
      ((generate (fun _ => .ok (spannedRules "s" parenTokens wordRules.prods)) 60 true .ll1 false .cpp "x.lapex".toList (some [])).1.all fun w => match w with
        | .cppLLParser table => match genCppLL (tokenNames wordRules) wordGrammar table with
          | .ok src => src.nonTerminals.Nodup
          | .error _ => false
        | _ => true) = true := by decide +kernel
  have h := (Prod.ext rfl hr.1 : generate (fun _ => .ok (spannedRules "s" parenTokens wordRules.prods)) 60 true .ll1 false .cpp "x.lapex".toList (some []) = (_, .ok))
  obtain ⟨text, rules, g, table, _, h2, h3, hm, h4⟩ := C87_cpp_ll _ _ _ _ _ _ (fun b => [b]) (by simp) (fun _ => "x".toList) (fun r => by decide) "NT_S".toList h
  cases h2
  have eg : g = wordGrammar := by
    have := h3.symm.trans (show Grammar.fromRuleSet (spannedRules "s" parenTokens wordRules.prods).ruleSet = .ok wordGrammar from wordGrammar_built)
    exact Except.ok.inj this
  subst eg
  obtain ⟨src, hs, h5⟩ := h4 wordRules_words word_noEmpty (by decide) (by decide) (fun r hr => ⟨parenTokens_useful r hr, parenTokens_nonempty r hr⟩) word_variants word_gaps word_end 0 rfl
  have hnt : src.nonTerminals.Nodup := by
    have := List.all_eq_true.mp hr.2 _ hm
    simp only at this
    rw [show genCppLL (tokenNames wordRules) wordGrammar table = .ok src from hs] at this
    simpa using this
  obtain ⟨dir', lexer, files, visitor, k1, k2, k3, k4, k5, k6, k7, k8, k9, k10⟩ := h5 hnt _ (disk_takes _) (fun _ => none)
  exact ⟨_, dir', lexer, files, h, ⟨_, _, k1⟩, k2, k3, k5, k10⟩

end Verif
