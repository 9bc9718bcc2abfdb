import Verif.Proofs.Output
import Verif.Props.Generate

/-!
# C86: what a run leaves in the target directory

One call of `generate_code` for every disk, then runs that write several files: complete, with faults, killed at any time, and repeated.
-/

set_option autoImplicit false

namespace Verif

section
variable (disk : Disk) (key : FileName) (g : Generator) (targets : Targets) (dir : Dir)

/-- The directory after a call for a key without target. -/
theorem code_file (h : targetOf key targets = none) (hc : disk.creates key = true) :
    (generateCode disk key g targets dir).2.1 = dir.set key (writePieces bufCapacity ⟨[], disk.room key, []⟩ g.pieces).1.close.written := by
  simp [generateCode, h, hc]

/-- C86. Other files are not touched. -/
theorem C86_others (n : FileName) (hn : n ≠ key) : (generateCode disk key g targets dir).2.1 n = dir n := by
  unfold generateCode
  cases targetOf key targets with
  | some _ => rfl
  | none =>
    simp only
    split
    · exact Dir.set_other _ _ hn
    · rfl

theorem targetOf_append (k : FileName) (data : List UInt8) (ts : Targets) : targetOf k (targetAppend key data ts) = (targetOf k ts).map (fun v => if k = key then v ++ data else v) := by
  induction ts with
  | nil => rfl
  | cons t ts ih =>
    obtain ⟨k', v⟩ := t
    by_cases h1 : k' = key
    · subst h1
      by_cases h2 : k' = k
      · subst h2; simp [targetAppend, targetOf]
      · have h3 : k ≠ k' := fun e => h2 e.symm
        simp only [targetAppend, if_true, targetOf, if_neg h2]
        cases targetOf k ts <;> simp [h3]
    · by_cases h2 : k' = k
      · subst h2; simp [targetAppend, targetOf, h1]
      · simp [targetAppend, targetOf, h1, h2, ih]

/-- C86. If there is a target for the key, it gets the output behind what it has, no other target is changed, and no file. -/
theorem C86_target (old : List UInt8) (h : targetOf key targets = some old) :
    (generateCode disk key g targets dir).2.1 = dir ∧ targetOf key (generateCode disk key g targets dir).1 = some (old ++ g.output) ∧
    (∀ k, k ≠ key → targetOf k (generateCode disk key g targets dir).1 = targetOf k targets) ∧
    ((generateCode disk key g targets dir).2.2 = .ok ↔ g.ends = .ok) := by
  have e : generateCode disk key g targets dir = (targetAppend key g.output targets, dir, if g.ends = .ok then .ok else .panic) := by simp [generateCode, h]
  rw [e]
  refine ⟨rfl, ?_, fun k hk => ?_, ?_⟩
  · simp [targetOf_append, h]
  · simp only [targetOf_append]
    cases targetOf k targets <;> simp [hk]
  · cases he : g.ends <;> simp

/-- C86. Of several targets for a key the last one is used. -/
theorem C86_add_target (k : FileName) (start : List UInt8) : targetOf k (addTarget key start targets) = if k = key then some start else targetOf k targets := by
  induction targets with
  | nil =>
    by_cases h : k = key
    · simp [addTarget, targetOf, h]
    · have h' : key ≠ k := fun e => h e.symm
      simp [addTarget, targetOf, h, h']
  | cons t ts ih =>
    obtain ⟨k', v⟩ := t
    by_cases h1 : k' = key
    · subst h1
      by_cases h2 : k' = k
      · subst h2; simp [addTarget, targetOf]
      · have h3 : k ≠ k' := fun e => h2 e.symm
        simp [addTarget, targetOf, h2, h3]
    · by_cases h2 : k' = k
      · subst h2; simp [addTarget, targetOf, h1]
      · simp [addTarget, targetOf, h1, h2, ih]

/-- C86. On a disk that takes the file it has exactly the output of the generator afterwards, whatever was in it; also if the generator panics in the end. -/
theorem C86_complete (h : targetOf key targets = none) (hc : disk.creates key = true) (hr : g.output.length ≤ disk.room key) :
    generateCode disk key g targets dir = (targets, dir.set key g.output, if g.ends = .ok then .ok else .panic) := by
  have hp := pieces_inv g.pieces [] _ (new_inv bufCapacity (disk.room key))
  rw [List.nil_append] at hp
  rcases hp with ⟨h1, h2⟩ | ⟨_, h2, _⟩
  · simp only [generateCode, h, hc, if_true, h1, (close_prefix h2).2.1 hr]
    rfl
  · exact absurd hr (by unfold Generator.output; omega)

/-- C86. On any disk the file is as before if it cannot be created (and this is an error), and otherwise it has the beginning of the output. -/
theorem C86_begun (h : targetOf key targets = none) :
    (disk.creates key = false → generateCode disk key g targets dir = (targets, dir, .err)) ∧
    (disk.creates key = true → ∃ p, p <+: g.output ∧ p.length ≤ disk.room key ∧ (generateCode disk key g targets dir).2.1 key = some p) := by
  refine ⟨fun hc => by simp [generateCode, h, hc], fun hc => ?_⟩
  rw [code_file disk key g targets dir h hc]
  refine ⟨_, ?_, ?_, Dir.set_self _ _ _⟩
  all_goals
    have hp := pieces_inv g.pieces [] _ (new_inv bufCapacity (disk.room key))
    rw [List.nil_append] at hp
    rcases hp with ⟨_, h2⟩ | ⟨_, _, h2⟩
  · exact (close_prefix h2).1
  · exact (close_failed h2).2
  · obtain ⟨k1, k2, k3⟩ := h2
    unfold BufFile.close
    by_cases hr : (writePieces bufCapacity ⟨[], disk.room key, []⟩ g.pieces).1.buf.length ≤ (writePieces bufCapacity ⟨[], disk.room key, []⟩ g.pieces).1.room
    · rw [flush_ok hr]; simp; omega
    · rw [flush_fails hr]; simp; omega
  · rw [(close_failed h2).1, h2.left]

/-- C86. If the call returns Ok, at most the last 8192 bytes are missing from the file: so an error is reported if more than that does not fit. -/
theorem C86_ok (h : targetOf key targets = none) (hok : (generateCode disk key g targets dir).2.2 = .ok) :
    g.ends = .ok ∧ ∃ p, p <+: g.output ∧ g.output.length ≤ p.length + 8192 ∧ (generateCode disk key g targets dir).2.1 key = some p := by
  by_cases hc : disk.creates key = true
  · have hp := pieces_inv g.pieces [] _ (new_inv bufCapacity (disk.room key))
    rw [List.nil_append] at hp
    rw [code_file disk key g targets dir h hc]
    rcases hp with ⟨h1, h2⟩ | ⟨h1, _, _⟩
    · refine ⟨?_, _, (close_prefix h2).1, (close_prefix h2).2.2, Dir.set_self _ _ _⟩
      simp only [generateCode, h, hc, if_true, h1] at hok
      by_contra he
      simp [he] at hok
    · simp [generateCode, h, hc, h1] at hok
  · simp [generateCode, h, hc] at hok

/-- pieces that stay in the buffer -/
theorem pieces_small {cap : Nat} : ∀ (ps : List (List UInt8)) (f : BufFile), f.buf.length + ps.flatten.length < cap → writePieces cap f ps = ({ f with buf := f.buf ++ ps.flatten }, true)
  | [], f, _ => by simp [writePieces]
  | p :: ps, f, h => by
    simp only [List.flatten_cons, List.length_append] at h
    have e : f.write cap p = ({ f with buf := f.buf ++ p }, true) := by
      unfold BufFile.write
      rw [if_pos (by omega)]
    simp only [writePieces, e]
    rw [pieces_small ps _ (by rw [List.length_append]; omega)]
    simp

/-- C86. For a file of less than 8192 bytes a full disk is not noticed at all: the call returns Ok and the file is empty. -/
theorem C86_lost (h : targetOf key targets = none) (hc : disk.creates key = true) (hr : disk.room key = 0) (hs : g.output.length < 8192) (hg : g.ends = .ok) :
    generateCode disk key g targets dir = (targets, dir.set key [], .ok) := by
  have e := pieces_small (cap := bufCapacity) g.pieces ⟨[], disk.room key, []⟩ (by
    rw [List.length_nil, Nat.zero_add]; exact hs)
  rw [hr] at e
  simp only [generateCode, h, hc, if_true, hr, e, hg]
  have : (BufFile.close ⟨[], 0, [] ++ g.pieces.flatten⟩).written = [] := by
    unfold BufFile.close
    by_cases h0 : (([] : List UInt8) ++ g.pieces.flatten).length ≤ 0
    · rw [flush_ok h0]
      have := List.length_eq_zero_iff.mp (Nat.le_zero.mp h0)
      simp only [List.nil_append] at this ⊢
      exact this
    · rw [flush_fails h0]; simp
  rw [this]
end

/-! ## Runs -/

theorem run_withFiles {disk : Disk} : ∀ {files : List (FileName × Generator)} {dir : Dir}, disk.Takes files → (∀ f ∈ files, f.2.ends = .ok) → writeFiles disk files dir = (dir.withFiles files, true)
  | [], _, _, _ => rfl
  | (k, g) :: fs, dir, ht, hg => by
    have e := C86_complete disk k g [] dir rfl (ht _ List.mem_cons_self).1 (ht _ List.mem_cons_self).2
    have hk : g.ends = .ok := hg _ List.mem_cons_self
    rw [if_pos hk] at e
    simp only [writeFiles, e]
    exact run_withFiles (fun f hf => ht f (List.mem_cons_of_mem _ hf)) (fun f hf => hg f (List.mem_cons_of_mem _ hf))

/-- C86. A run on a disk that takes the files: each file is complete, all others are as before. -/
theorem C86_run (disk : Disk) (files : List (FileName × Generator)) (ht : disk.Takes files) (hg : ∀ f ∈ files, f.2.ends = .ok) (hn : (files.map (·.1)).Nodup) (dir : Dir) :
    ∃ dir', writeFiles disk files dir = (dir', true) ∧ (∀ n g, (n, g) ∈ files → dir' n = some g.output) ∧ ∀ n, (∀ g, (n, g) ∉ files) → dir' n = dir n := by
  exact ⟨_, run_withFiles ht hg, fun n g h => withFiles_mem files dir n g hn h, fun n h => withFiles_other files dir n h⟩

/-- C86. A run on any disk: each file is as before or has the beginning of what should be in it. -/
theorem C86_faults (disk : Disk) (files : List (FileName × Generator)) (dir : Dir) : OldOrBegun dir files (writeFiles disk files dir).1 := by
  induction files generalizing dir with
  | nil => intro n; exact .inl rfl
  | cons f fs ih =>
    obtain ⟨k, g⟩ := f
    have hstep : ∀ n, (generateCode disk k g [] dir).2.1 n = dir n ∨ ∃ g' p, (n, g') ∈ (k, g) :: fs ∧ p <+: g'.output ∧ (generateCode disk k g [] dir).2.1 n = some p := by
      intro n
      by_cases hn : n = k
      · subst hn
        by_cases hc : disk.creates n = true
        · obtain ⟨p, h1, _, h2⟩ := (C86_begun disk n g [] dir rfl).2 hc
          exact .inr ⟨g, p, List.mem_cons_self, h1, h2⟩
        · rw [(C86_begun disk n g [] dir rfl).1 (by simpa using hc)]
          exact .inl rfl
      · exact .inl (C86_others disk k g [] dir n hn)
    rcases hgc : generateCode disk k g [] dir with ⟨ts, d1, e⟩
    rw [hgc] at hstep
    intro n
    cases e with
    | ok =>
      simp only [writeFiles, hgc]
      rcases ih d1 n with h | ⟨g', p, h1, h2, h3⟩
      · rw [h]; exact hstep n
      · exact .inr ⟨g', p, List.mem_cons_of_mem _ h1, h2, h3⟩
    | err => simp only [writeFiles, hgc]; exact hstep n
    | panic => simp only [writeFiles, hgc]; exact hstep n

/-- C86. The same if the process is killed at any time. -/
theorem C86_killed (files : List (FileName × Generator)) (dir dir' : Dir) (h : Killed dir files dir') : OldOrBegun dir files dir' := by
  have hb : ∀ k n, dir.withFiles (files.take k) n = dir n ∨ ∃ g p, (n, g) ∈ files ∧ p <+: g.output ∧ dir.withFiles (files.take k) n = some p := by
    intro k n
    rcases withFiles_some (files.take k) dir n with h | ⟨g, h1, h2⟩
    · exact .inl h
    · exact .inr ⟨g, _, List.mem_of_mem_take h1, List.prefix_rfl, h2⟩
  cases h with
  | between k => exact hb k
  | within k name g j room hk =>
    intro n
    by_cases hn : n = name
    · subst hn
      refine .inr ⟨g, _, List.mem_of_getElem? hk, (killed_prefix _ _ _).trans ?_, Dir.set_self _ _ _⟩
      have e : g.output = (g.pieces.take j).flatten ++ (g.pieces.drop j).flatten := by rw [← List.flatten_append, List.take_append_drop]; rfl
      rw [e]
      exact List.prefix_append _ _
    · rw [Dir.set_other _ _ hn]
      exact hb k n

/-- C86. Whatever has happened to a run before, be it faults of the disk, panics of generators or a kill at any time: a run on a disk that takes the files leaves the same directory as if that run had
not been. So running twice is running once. -/
theorem C86_again (disk : Disk) (files : List (FileName × Generator)) (ht : disk.Takes files) (hg : ∀ f ∈ files, f.2.ends = .ok) (dir dir' : Dir) (h : OldOrBegun dir files dir') :
    writeFiles disk files dir' = writeFiles disk files dir := by
  rw [run_withFiles ht hg, run_withFiles ht hg, withFiles_congr files dir dir']
  intro n hn
  rcases h n with h | ⟨g, _, hm, _⟩
  · exact h
  · exact absurd hm (hn g)

/-! ## `lapex generate` -/

/-- the names of the files of a run, in order -/
def outputNames (genLexer : Bool) (alg : Algorithm) (genTable : Bool) : Language → List String
  | .rust => ["tokens.rs"] ++ (if genLexer then ["lexer.rs"] else []) ++ (if genTable ∧ alg ≠ .ll1 then ["table"] else []) ++ ["parser.rs"]
  | .cpp => ["tokens.h", "tokens.cpp"] ++ (if genLexer then ["lexer.h", "lexer.cpp"] else []) ++ (if genTable ∧ alg ≠ .ll1 then ["table"] else []) ++
      ["parser.h", "parser.cpp", "parser_impl.h", "visitor.h"]

theorem outputNames_nodup (genLexer : Bool) (alg : Algorithm) (genTable : Bool) (lang : Language) : ((outputNames genLexer alg genTable lang).map String.toList).Nodup := by
  cases lang <;> cases genLexer <;> cases genTable <;> cases alg <;> decide

variable {parse : List Char → Res SpannedRules} {fuel : Nat} {genLexer : Bool} {alg : Algorithm} {genTable : Bool} {lang : Language} {path : List Char} {contents : Option (List Char)}
  {ws : List Written}

/-- C86. The files a successful run of `generate` writes are those of this list. -/
theorem C86_names (h : generate parse fuel genLexer alg genTable lang path contents = (ws, .ok)) :
    ws.flatMap (Written.fileNames lang) = (outputNames genLexer alg genTable lang).map String.toList := by
  obtain ⟨text, rules, g, vs, lexer, table, parser, tb, _, _, _, h1, h2, h3, h4, _⟩ := C65_ok _ _ _ _ _ _ _ _ _ h
  have hl : lexer.flatMap (Written.fileNames lang) = (if genLexer = true then (match lang with | .rust => ["lexer.rs".toList] | .cpp => ["lexer.h".toList, "lexer.cpp".toList]) else []) := by
    by_cases hc : genLexer = true
    · rw [if_pos hc] at h3 ⊢
      obtain ⟨t, n, rfl, _⟩ := h3
      cases lang <;> rfl
    · rw [if_neg hc] at h3 ⊢
      rw [h3]; rfl
  have ht : table.flatMap (Written.fileNames lang) = (if genTable = true ∧ alg ≠ .ll1 then ["table".toList] else []) := by
    by_cases hc : genTable = true ∧ alg ≠ .ll1
    · rw [if_pos hc] at h4 ⊢
      obtain ⟨_, _, _, _, rfl⟩ := h4
      rfl
    · rw [if_neg hc] at h4 ⊢
      rw [h4]; rfl
  have hp : parser.fileNames lang = (match lang with | .rust => ["parser.rs".toList] | .cpp => ["parser.h".toList, "parser.cpp".toList, "parser_impl.h".toList, "visitor.h".toList]) := by
    cases h2 <;> rfl
  rw [h1]
  simp only [List.flatMap_append, hl, ht, List.flatMap_cons, List.flatMap_nil, hp, List.append_nil]
  cases lang <;> cases genLexer <;> cases genTable <;> cases alg <;> simp [outputNames, Written.fileNames]

/-- C86. So a successful run on a disk that takes the files leaves exactly these files, with what the generators write into them, whatever the directory contained before; and other files as before. -/
theorem C86_generate (h : generate parse fuel genLexer alg genTable lang path contents = (ws, .ok)) (writes : FileName → Generator) (hg : ∀ n, (writes n).ends = .ok) (disk : Disk)
    (ht : disk.Takes ((ws.flatMap (Written.fileNames lang)).map fun n => (n, writes n))) (dir : Dir) :
    ∃ dir', writeFiles disk ((ws.flatMap (Written.fileNames lang)).map fun n => (n, writes n)) dir = (dir', true) ∧
      ∀ n : FileName, dir' n = if n ∈ (outputNames genLexer alg genTable lang).map String.toList then some (writes n).output else dir n := by
  have hn := C86_names h
  obtain ⟨dir', h1, h2, h3⟩ := C86_run disk _ ht (fun f hf => by
    obtain ⟨n, _, rfl⟩ := List.mem_map.mp hf
    exact hg n) (by
    rw [List.map_map]
    simp only [Function.comp_def, List.map_id']
    rw [hn]
    exact outputNames_nodup _ _ _ _) dir
  refine ⟨dir', h1, fun n => ?_⟩
  rw [← hn]
  split
  · rename_i hm
    exact h2 n _ (List.mem_map.mpr ⟨n, hm, rfl⟩)
  · rename_i hm
    refine h3 n (fun g hg => hm ?_)
    obtain ⟨n', h', he⟩ := List.mem_map.mp hg
    cases he
    exact h'

/-! ## Examples -/

-- a full disk: Ok, and an empty file
example : generateCode ⟨fun _ => true, fun _ => 0⟩ "parser.rs".toList ⟨[[102, 110], [32]], .ok⟩ [] (fun _ => some [1]) = ([], Dir.set (fun _ => some [1]) "parser.rs".toList [], .ok) :=
  C86_lost _ _ _ _ _ rfl rfl rfl (by decide) rfl
-- two files, the second cannot be created
example : (writeFiles ⟨fun n => n = ['a'], fun _ => 10⟩ [(['a'], ⟨[[1], [2, 3]], .ok⟩), (['b'], ⟨[[4]], .ok⟩)] (fun _ => none)).2 = false ∧
    (writeFiles ⟨fun n => n = ['a'], fun _ => 10⟩ [(['a'], ⟨[[1], [2, 3]], .ok⟩), (['b'], ⟨[[4]], .ok⟩)] (fun _ => none)).1 ['a'] = some [1, 2, 3] ∧
    (writeFiles ⟨fun n => n = ['a'], fun _ => 10⟩ [(['a'], ⟨[[1], [2, 3]], .ok⟩), (['b'], ⟨[[4]], .ok⟩)] (fun _ => none)).1 ['b'] = none := by decide
-- killed in the second file, with an old one there, and again from the beginning
example : ∃ dir', Killed (fun _ => some [7]) [(['a'], ⟨[[1], [2, 3]], .ok⟩), (['b'], ⟨[[4]], .ok⟩)] dir' ∧ dir' ['a'] = some [1, 2, 3] ∧ dir' ['b'] = some [] ∧ dir' ['c'] = some [7] :=
  ⟨_, .within 1 ['b'] ⟨[[4]], .ok⟩ 1 9 rfl, by decide, by decide, by decide⟩
example : Disk.Takes ⟨fun _ => true, fun _ => 10⟩ [(['a'], ⟨[[1], [2, 3]], .ok⟩), (['b'], ⟨[[4]], .ok⟩)] := by
  intro f hf
  simp at hf
  rcases hf with rfl | rfl <;> decide
example : targetOf ['a'] (generateCode ⟨fun _ => true, fun _ => 10⟩ ['a'] ⟨[[1], [2, 3]], .ok⟩ (addTarget ['a'] [9] []) (fun _ => none)).1 = some [9, 1, 2, 3] := by decide

end Verif
