import Verif.Proofs.CppVisitor
import Verif.Props.CppLRText
import Verif.Props.Names

/-!
# C80: the class in `visitor.h` has a function for each rule, those that the C++ parser calls

The file is read by `readVisitor` (`Verif/Spec/CppVisitor.lean`). `IsCppCallback g r name` (`Verif/Spec/Names.lean`) says that `name` is the name made for rule number `r`; the names that occur
in calls on the visitor in the text of the parser are `CppUnit.called`.
-/

set_option autoImplicit false

namespace Verif

/-- the file is written for every grammar, without an error -/
theorem C80_written (rs : RuleSet) (g : Grammar) (hg : Grammar.fromRuleSet rs = .ok g) : ∃ text, cppVisitorFile g = .ok (text, .ok) := by
  obtain ⟨t, h⟩ := cppVisitorFile_ok (C19_well_formed rs g hg)
  obtain ⟨ms, _, e⟩ := visitor_file h
  exact ⟨visHA ++ (ms.flatten ++ visHB), by rw [h, e]⟩

/-- The class has the function `shift` for tokens, and one function without parameters for each rule of the grammar, which has the name made for the rule, and no other functions. -/
theorem C80_methods (g : Grammar) (hg : g.WordNames) (text : List Char) (h : cppVisitorFile g = .ok (text, .ok)) :
    ∃ names : List (List Char), readVisitor text = some (⟨"shift".toList, phrase "lexer::TokenType tk_type, T data"⟩ :: names.map fun x => ⟨x, []⟩) ∧
      names.length = g.rules.length ∧ ∀ x, x ∈ names ↔ ∃ r, IsCppCallback g r x := by
  refine ⟨cppVisitorMethods g, visitor_reads hg h, ?_, fun x => mem_cpp_methods⟩
  rw [cpp_methods, methods_visits, List.length_map]
  have hp : ((ruleVisits noTags g).map (·.1)).Perm (List.range g.rules.length) := by
    rw [List.perm_ext_iff_of_nodup (visits_nodup _ _) List.nodup_range]
    intro r
    rw [List.mem_range, List.mem_map]
    constructor
    · rintro ⟨⟨r', x⟩, hm, rfl⟩
      obtain ⟨rule, h1, _⟩ := visits_callback.mp hm
      exact (List.getElem?_eq_some_iff.mp h1).1
    · intro hr
      obtain ⟨l, _, h2, h3⟩ := cpp_switch g
      have hm : r ∈ l.map (·.1) := by rw [h2]; exact List.mem_range.mpr hr
      obtain ⟨c, hc, rfl⟩ := List.mem_map.mp hm
      exact ⟨c, visits_callback.mpr ((cpp_of_callback (tagOf_noTags g c.1)).mpr ((h3 c.1 c.2).mp hc)), rfl⟩
  have := hp.length_eq
  rwa [List.length_map, List.length_range] at this

/-- If no production is called like a non-terminal without name, and no name ends in an underscore and a number, then the names of the functions are different, so each can be defined. -/
theorem C80_different (rs : RuleSet) (g : Grammar) (hg : Grammar.fromRuleSet rs = .ok g) (hl : rs.prods.length ≤ 65536) (ha : ∀ p ∈ rs.prods, ¬ IsAnon p.name.toList)
    (hn : ∀ p ∈ rs.prods, ¬ EndsInNumber p.name.toList) (hw : g.WordNames) (text : List Char) (h : cppVisitorFile g = .ok (text, .ok)) :
    ∃ ms, readVisitor text = some ms ∧ (ms.map (·.name)).Nodup := by
  refine ⟨_, visitor_reads hw h, ?_⟩
  have hd := (C41_cpp_distinct hg hl ha hn).1
  have e : ((cppVisitorMethods g).map (fun x => (⟨x, []⟩ : CppMethod))).map (·.name) = cppVisitorMethods g := by simp [List.map_map, Function.comp_def]
  rw [List.map_cons, e, List.nodup_cons]
  refine ⟨?_, hd⟩
  intro hm
  obtain ⟨r, rule, _, h1⟩ := mem_cpp_methods.mp hm
  have : ("shift".toList).head? = some 'r' := by
    rcases h1 with ⟨_, h1⟩ | ⟨_, h1⟩ <;> (rw [show shiftMethod.name = "shift".toList from rfl] at h1; rw [h1]; rfl)
  exact absurd this (by decide)

/-- Above each function stands the rule it is called for. -/
theorem C80_comment (g : Grammar) (text : List Char) (h : cppVisitorFile g = .ok (text, .ok)) (r : Nat) (name : List Char) (hc : IsCppCallback g r name) :
    ∃ rule t a b, g.rules[r]? = some rule ∧ ShowsRule g rule t ∧ text = a ++ ("// ".toList ++ t ++ "\nvirtual void ".toList ++ name ++ "() = 0;\n".toList) ++ b := by
  obtain ⟨ms, h1, e⟩ := visitor_file h
  obtain ⟨rule, t, a, b, h2, h3, h4⟩ := method_written hc h1
  refine ⟨rule, t, visHA ++ a, b ++ visHB, h2, ruleText_shows h3, ?_⟩
  have e := congrArg Prod.fst e
  simp only at e
  rw [e, h4, show "\nvirtual void ".toList = "\n".toList ++ "virtual void ".toList by decide]
  simp only [List.append_assoc]

/-- The functions of the visitor that are called in the text of the parser are those that the class has. -/
theorem C80_calls (names : List (List Char)) (g : Grammar) (tb : LRTable) (src : CppLRSource) (h : genCpp names g tb = .ok src) (hp : src.compile.isSome)
    (calls : List (Nat × List Char)) (hc : cppReduceSwitch g = .ok calls) (hn : ∀ n ∈ names, IsWord n) (hg : g.WordNames) (text : List Char) (ht : cppVisitorFile g = .ok (text, .ok)) :
    ∃ u ms, (cppLRFiles names src calls).read = some u ∧ readVisitor text = some ms ∧ ∀ x, x ∈ u.called ↔ ∃ m ∈ ms, m.name = x := by
  obtain ⟨p, hp⟩ := Option.isSome_iff_exists.mp hp
  refine ⟨_, _, parser_reads h hp hc hn hg, visitor_reads hg ht, fun x => ?_⟩
  obtain ⟨l, h1, _, h3⟩ := cpp_switch g
  rw [hc] at h1
  cases h1
  simp only [CppUnit.called, simplesL_append, List.flatMap_append, called_visit, called_parse, List.mem_append, List.mem_map, List.mem_cons, List.not_mem_nil, or_false]
  constructor
  · rintro (⟨c, hm, rfl⟩ | rfl)
    · exact ⟨⟨c.2, []⟩, .inr ⟨c.2, mem_cpp_methods.mpr ⟨c.1, (h3 _ _).mp hm⟩, rfl⟩, rfl⟩
    · exact ⟨_, .inl rfl, rfl⟩
  · rintro ⟨m, rfl | ⟨y, hy, rfl⟩, rfl⟩
    · exact .inr rfl
    · obtain ⟨r, hr⟩ := mem_cpp_methods.mp hy
      exact .inl ⟨(r, y), (h3 _ _).mpr hr, rfl⟩

/-! ## A case -/

/-- what the file for the grammar `s = lp s rp | x` has in it -/
example : ∃ text, cppVisitorFile wordGrammar = .ok (text, .ok) ∧
    readVisitor text = some [⟨"shift".toList, phrase "lexer::TokenType tk_type, T data"⟩, ⟨"reduce_s_1".toList, []⟩, ⟨"reduce_s_2".toList, []⟩] := by
  obtain ⟨text, h⟩ := C80_written _ _ wordGrammar_built
  refine ⟨text, h, ?_⟩
  have := visitor_reads (wordNames wordGrammar_built (by decide) (by decide) wordRules_words) h
  rw [show cppVisitorMethods wordGrammar = ["reduce_s_1".toList, "reduce_s_2".toList] by decide +kernel] at this
  exact this

-- the hypotheses of C80_different and C80_comment
example : (∀ p ∈ wordRules.prods, ¬ IsAnon p.name.toList) ∧ (∀ p ∈ wordRules.prods, ¬ EndsInNumber p.name.toList) ∧ IsCppCallback wordGrammar 1 "reduce_s_2".toList := by
  refine ⟨?_, ?_, ⟨0, [.t 2], 1⟩, rfl, .inr ⟨by decide, by decide +kernel⟩⟩
  · intro p hp
    simp only [wordRules, List.mem_cons, List.not_mem_nil, or_false] at hp
    rcases hp with rfl | rfl <;> exact not_anon (by decide)
  · intro p hp
    simp only [wordRules, List.mem_cons, List.not_mem_nil, or_false] at hp
    rcases hp with rfl | rfl <;> exact not_number (by decide)

end Verif
