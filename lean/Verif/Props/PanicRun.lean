import Verif.Props.OnDisk
import Verif.Props.FailedRun

/-!
# C90: a code generator that panics

`generate_code` creates the file before it calls the generator (lapex-codegen/src/lib.rs:48-49), so a generator that panics leaves an empty file where the one of the last run was.
-/

set_option autoImplicit false

namespace Verif

section
variable {split : List UInt8 → List (List UInt8)} (hsplit : ∀ b, (split b).flatten = b)

/-- C90. All files having been written without an error, on any disk, every generator has come to an end, all places in its template having been filled: no part of the output is missing because of a panic. -/
theorem C90_complete (files : List (FileName × Res (List Char × WriteStatus))) (disk : Disk) (dir dir' : Dir)
    (h : writeFiles disk (files.map fun x => (x.1, textGenerator split x.2)) dir = (dir', true)) : ∀ f ∈ files, ∃ t, f.2 = .ok (t, .ok) := by
  induction files generalizing dir with
  | nil => intro f hf; cases hf
  | cons x xs ih =>
    rw [List.map_cons, writeFiles] at h
    split at h
    · rename_i d e
      intro f hf
      rcases List.mem_cons.mp hf with rfl | hf
      · have := (C86_ok disk f.1 (textGenerator split f.2) [] dir rfl (by rw [e])).1
        obtain ⟨n, t⟩ := f
        cases t with
        | error _ => cases this
        | ok t =>
          obtain ⟨t, s⟩ := t
          cases s with
          | ok => exact ⟨t, rfl⟩
          | _ => simp [textGenerator] at this
      · exact ih d h f hf
    · cases h

include hsplit in
/-- C90. A generator that panics: the files before it are complete, its own is there and empty, whatever was in it before, and no other file is changed. -/
theorem C90_panic (before after : List (FileName × Res (List Char × WriteStatus))) (name : FileName) (e : Err) (hok : ∀ f ∈ before, ∃ t, f.2 = .ok (t, .ok))
    (hn : ((before.map (·.1)) ++ [name]).Nodup) (disk : Disk) (hd : disk.Takes (before.map fun x => (x.1, textGenerator split x.2))) (hc : disk.creates name = true) (dir : Dir) :
    ∃ dir', writeFiles disk ((before ++ (name, .error e) :: after).map fun x => (x.1, textGenerator split x.2)) dir = (dir', false) ∧
      (∀ (n : String) t, (n.toList, .ok (t, .ok)) ∈ before → dir'.Reads n t) ∧ dir' name = some [] ∧ ∀ n, n ∉ before.map (·.1) → n ≠ name → dir' n = dir n := by
  obtain ⟨dir1, h1, h2, h3⟩ := onDisk_reads hsplit (List.nodup_append.mp hn).1 hok disk hd dir
  have happ : ∀ (a b : List (FileName × Generator)) (d d' : Dir), writeFiles disk a d = (d', true) → writeFiles disk (a ++ b) d = writeFiles disk b d' := by
    intro a
    induction a with
    | nil => intro b d d' h; cases h; rfl
    | cons x xs ih =>
      intro b d d' h
      rw [List.cons_append, writeFiles]
      rw [writeFiles] at h
      split at h
      · exact ih b _ _ h
      · cases h
  have hg := C86_complete disk name (textGenerator split (.error e)) [] dir1 rfl hc (Nat.zero_le _)
  have hne : ∀ n, n ∈ before.map (·.1) → n ≠ name := fun n hn' => (List.nodup_append.mp hn).2.2 n hn' name List.mem_cons_self
  refine ⟨dir1.set name [], ?_, fun n t hm => ?_, Dir.set_self _ _ _, fun n hb hn' => ?_⟩
  · rw [List.map_append, happ _ _ _ _ h1, List.map_cons, writeFiles]
    simp only
    rw [hg]
    rfl
  · unfold Dir.Reads
    rw [Dir.set_other _ _ (hne _ (List.mem_map.mpr ⟨_, hm, rfl⟩))]
    exact h2 n t hm
  · rw [Dir.set_other _ _ hn', h3 n hb]

theorem names_panic {rules : List TokenRule} (hb : ∃ r ∈ rules, BadSegment r.name.toList) : rules.mapM (fun r => tokenEnumName r.name.toList) = .error .panic := by
  obtain ⟨r, hr, hbad⟩ := hb
  have hp := (C42_panics r.name.toList).1.mpr hbad
  cases hm : rules.mapM (fun r => tokenEnumName r.name.toList) with
  | error e =>
    obtain ⟨r', _, he⟩ := mapM_error hm
    unfold tokenEnumName at he
    cases hc : upperCamel r'.name.toList with
    | ok c => rw [hc] at he; cases he
    | error e' =>
      rw [hc] at he
      cases he
      cases e with
      | panic => rfl
      | fuel => exact absurd hc (C42_panics _).2
  | ok ws =>
    obtain ⟨_, h2⟩ := mapM_ok _ _ hm
    obtain ⟨i, hi, hx⟩ := List.getElem_of_mem hr
    obtain ⟨y, _, hy⟩ := h2 i r (by rw [List.getElem?_eq_getElem hi, hx])
    unfold tokenEnumName at hy
    rw [hp] at hy
    cases hy

include hsplit in
/-- C90. A token whose name has an empty part (`a_`, `_a`, `a__b`) or one that begins with `_` or a char outside ASCII: for Rust the run panics, on any grammar and with any algorithm, and empties the
`tokens.rs` of the last run, the lexer and the parser of which stay. -/
theorem C90_bad_token (parse : List Char → Res SpannedRules) (text : List Char) (rules : SpannedRules) (hparse : parse text = .ok rules) (hbad : ∃ r ∈ rules.tokens, BadSegment r.inner.name.toList)
    (fuel : Nat) (genLexer : Bool) (alg : Algorithm) (genTable : Bool) (path : List Char) :
    generate parse fuel genLexer alg genTable .rust path (some text) = ([], .panic .tokens) ∧
    ∀ vs rs g debug label (disk : Disk), disk.creates "tokens.rs".toList = true → ∀ dir, ∃ dir',
      writeFiles disk (outputFiles split .rust rs (rules.tokens.map (·.inner)) g debug label [.tokens vs]) dir = (dir', false) ∧ dir'.Reads "tokens.rs" [] ∧
      ∀ n, n ≠ "tokens.rs".toList → dir' n = dir n := by
  have hm : (rules.tokens.map (·.inner)).mapM (fun r : TokenRule => tokenEnumName r.name.toList) = .error .panic := by
    obtain ⟨r, hr, h⟩ := hbad
    exact names_panic ⟨r.inner, List.mem_map.mpr ⟨r, hr, rfl⟩, h⟩
  constructor
  · unfold generate
    simp only [hparse]
    have : tokenFile .rust (rules.tokens.map (·.inner)) = .error .panic := by
      unfold tokenFile rustTokenVariants
      have h' : ((rules.tokens.map (·.inner)).map (·.name.toList)).mapM tokenEnumName = .error .panic := by
        rw [← hm, List.mapM_map]
        rfl
      simp only [h']
      rfl
    rw [this]
    rfl
  · intro vs rs g debug label disk hc dir
    have ht : rustTokensFile (rules.tokens.map (·.inner)) = .error .panic := by
      unfold rustTokensFile
      rw [hm]
      rfl
    obtain ⟨dir', h1, _, h3, h4⟩ := C90_panic hsplit [] [] "tokens.rs".toList .panic (fun f hf => by cases hf) (by simp) disk (fun f hf => by cases hf) hc dir
    refine ⟨dir', ?_, h3, fun n hn => h4 n (by simp) hn⟩
    rw [← h1]
    simp [outputFiles, Written.texts, ht, noTemplate, Except.map]

end

/-! ## Cases -/

/-- `token a_ = "a";` -/
example : ∃ dir' : Dir, (generate (fun _ => .ok ⟨⟨⟨⟨1, 1⟩, ⟨1, 1⟩⟩, "s"⟩, [⟨⟨⟨1, 1⟩, ⟨1, 1⟩⟩, ⟨"a_", none, .literal ['a']⟩⟩], [⟨⟨⟨1, 1⟩, ⟨1, 1⟩⟩, ⟨"s", none, .rule "a_"⟩⟩]⟩) 9 true .lr1 false .rust "x.lapex".toList (some [])).2 =
      .panic .tokens ∧
    writeFiles ⟨fun _ => true, fun _ => 100⟩ (outputFiles (fun b => [b]) .rust ⟨"s", ["a_"], [⟨"s", none, .rule "a_"⟩]⟩ [⟨"a_", none, .literal ['a']⟩] wordGrammar (fun _ => []) [] [.tokens []]) (fun _ => some [7]) = (dir', false) ∧
    dir' "tokens.rs".toList = some [] ∧ dir' "lexer.rs".toList = some [7] ∧ dir' "parser.rs".toList = some [7] := by
  have h := C90_bad_token (split := fun b => [b]) (by simp) (fun _ => .ok ⟨⟨⟨⟨1, 1⟩, ⟨1, 1⟩⟩, "s"⟩, [⟨⟨⟨1, 1⟩, ⟨1, 1⟩⟩, ⟨"a_", none, .literal ['a']⟩⟩], [⟨⟨⟨1, 1⟩, ⟨1, 1⟩⟩, ⟨"s", none, .rule "a_"⟩⟩]⟩) [] _ rfl
    ⟨_, List.mem_cons_self, (C42_panics _).1.mp (by decide)⟩ 9 true .lr1 false "x.lapex".toList
  obtain ⟨dir', h1, h2, h3⟩ := h.2 [] ⟨"s", ["a_"], [⟨"s", none, .rule "a_"⟩]⟩ wordGrammar (fun _ => []) [] ⟨fun _ => true, fun _ => 100⟩ rfl (fun _ => some [7])
  exact ⟨dir', by rw [h.1], h1, h2, h3 _ (by decide), h3 _ (by decide)⟩

/-- one file before the one whose generator panics, and one after it -/
example : ∃ dir' : Dir, writeFiles ⟨fun _ => true, fun _ => 1⟩ (([("tokens.h".toList, .ok (['x'], .ok)), ("parser.cpp".toList, .error .panic), ("visitor.h".toList, .ok (['y'], .ok))] :
      List (FileName × Res (List Char × WriteStatus))).map fun x => (x.1, textGenerator (fun b => [b]) x.2)) (fun _ => some [7]) = (dir', false) ∧
    dir'.Reads "tokens.h" ['x'] ∧ dir' "parser.cpp".toList = some [] ∧ dir' "visitor.h".toList = some [7] := by
  obtain ⟨dir', h1, h2, h3, h4⟩ := C90_panic (split := fun b => [b]) (by simp) [("tokens.h".toList, .ok (['x'], .ok))] [("visitor.h".toList, .ok (['y'], .ok))] "parser.cpp".toList .panic (by simp) (by decide)
    ⟨fun _ => true, fun _ => 1⟩ (by
      intro f hf
      simp only [List.map_cons, List.map_nil, List.mem_cons, List.not_mem_nil, or_false] at hf
      subst hf
      exact ⟨rfl, by decide⟩) rfl (fun _ => some [7])
  exact ⟨dir', h1, h2 _ _ List.mem_cons_self, h3, h4 _ (by decide) (by decide)⟩

end Verif
