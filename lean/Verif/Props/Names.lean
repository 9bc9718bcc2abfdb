import Verif.Proofs.Names
import Verif.Props.Grammar

/-!
# C41 and C42: names in generated code

`Verif/Spec/Names.lean` says which callback a rule has (`IsCallback`, `IsCppCallback`), and what segments of names and names equal up to case are.
-/

set_option autoImplicit false

namespace Verif

/-! ## C41 — reduce callbacks -/

/-- the generated `match` over rules has exactly one arm for each rule, and the arm calls the callback of the rule -/
theorem C41_visits (rs : RuleSet) (g : Grammar) :
    ((ruleVisits rs g).map (·.1)).Nodup ∧
    (∀ r, r < g.rules.length ↔ ∃ name, (r, name) ∈ ruleVisits rs g) ∧
    ∀ r name, (r, name) ∈ ruleVisits rs g ↔ IsCallback rs g r name := by
  refine ⟨visits_nodup rs g, fun r => ?_, fun r name => visits_callback⟩
  constructor
  · intro h
    exact ⟨_, mem_ruleVisits.mpr ⟨_, List.getElem?_eq_getElem h, rfl⟩⟩
  · rintro ⟨name, h⟩
    obtain ⟨rule, h, -⟩ := mem_ruleVisits.mp h
    exact (List.getElem?_eq_some_iff.mp h).1

/-- the functions declared in the visitor trait are those called, with one declaration for each rule -/
theorem C41_declared (rs : RuleSet) (g : Grammar) :
    (visitorMethods rs g).length = g.rules.length ∧ ∀ name, name ∈ visitorMethods rs g ↔ ∃ r, IsCallback rs g r name := by
  have h := methods_visits rs g
  constructor
  · have hp : ((ruleVisits rs g).map (·.1)).Perm (List.range g.rules.length) := by
      rw [List.perm_ext_iff_of_nodup (visits_nodup rs g) List.nodup_range]
      intro r
      rw [List.mem_range, (C41_visits rs g).2.1 r, List.mem_map]
      constructor
      · rintro ⟨⟨a, n⟩, h1, rfl⟩
        exact ⟨n, h1⟩
      · rintro ⟨n, h1⟩
        exact ⟨(r, n), h1, rfl⟩
    have := hp.length_eq
    rw [List.length_map, List.length_range] at this
    rw [h, List.length_map, this]
  · intro name
    rw [h, List.mem_map]
    constructor
    · rintro ⟨⟨r, n⟩, h1, rfl⟩
      exact ⟨r, visits_callback.mp h1⟩
    · rintro ⟨r, h1⟩
      exact ⟨(r, name), visits_callback.mpr h1, rfl⟩

/-- without tags, and when no production is named like `x_1` or `anon1`, no callback is declared twice: different rules have different callbacks -/
theorem C41_distinct {rs : RuleSet} {g : Grammar} (h : Grammar.fromRuleSet rs = .ok g) (hl : rs.prods.length ≤ 65536)
    (ht : ∀ p ∈ rs.prods, p.tag = none)
    (ha : ∀ p ∈ rs.prods, ¬ IsAnon p.name.toList) (hn : ∀ p ∈ rs.prods, ¬ EndsInNumber p.name.toList) :
    (visitorMethods rs g).Nodup ∧ ∀ r r' name, IsCallback rs g r name → IsCallback rs g r' name → r = r' := by
  have key : ∀ r r' name, IsCallback rs g r name → IsCallback rs g r' name → r = r' := by
    intro r r' name h1 h2
    have tn : ∀ r, tagOf rs g r = none := by
      intro r
      unfold tagOf
      cases hr : g.rules[r]? with
      | none => rfl
      | some rule =>
        cases hp : rs.prods[rule.origin]? with
        | none => simp [hp]
        | some p => simp [hp, ht p (List.mem_of_getElem? hp)]
    exact callbacks_untagged h hl ha hn ((cpp_of_callback (tn r)).mp h1) ((cpp_of_callback (tn r')).mp h2)
  exact ⟨methods_nodup_iff.mpr key, key⟩

/-- with tags, when no name of a non-terminal continues another with an underscore and no tag is a number: different rules have different callbacks exactly if no two
rules of a non-terminal come from productions with the same tag -/
theorem C41_distinct_tags {rs : RuleSet} {g : Grammar} (h : Grammar.fromRuleSet rs = .ok g) (hl : rs.prods.length ≤ 65536)
    (ha : ∀ p ∈ rs.prods, ¬ IsAnon p.name.toList)
    (hp : ∀ A B s, ntName g A ≠ ntName g B ++ ['_'] ++ s)
    (hd : ∀ r tag n, tagOf rs g r = some tag → tag ≠ decimal n) :
    (visitorMethods rs g).Nodup ↔
      ∀ (r r' : Nat) (x y : Rule) (tag : List Char), g.rules[r]? = some x → g.rules[r']? = some y → x.lhs = y.lhs →
        tagOf rs g r = some tag → tagOf rs g r' = some tag → r = r' := by
  constructor
  · intro hnd r r' x y tag hx hy hxy h1 h2
    by_cases hc : ruleCount g x.lhs = 1
    · exact ruleCount_one hx hy hxy hc
    · exact methods_nodup_iff.mp hnd r r' _ ⟨x, hx, .inr (.inl ⟨hc, tag, h1, rfl⟩)⟩ ⟨y, hy, .inr (.inl ⟨hxy ▸ hc, tag, h2, by rw [hxy]⟩)⟩
  · intro ht
    exact methods_nodup_iff.mpr (fun r r' name h1 h2 => callbacks_tagged h hl ha hp hd ht h1 h2)

/-- in any grammar, two rules of one non-terminal that come from productions with the same tag share their callback -/
theorem C41_tag_clash {rs : RuleSet} {g : Grammar} {r r' : Nat} {x y : Rule} {tag : List Char} (hx : g.rules[r]? = some x) (hy : g.rules[r']? = some y)
    (hxy : x.lhs = y.lhs) (hne : r ≠ r') (h1 : tagOf rs g r = some tag) (h2 : tagOf rs g r' = some tag) :
    (∃ name, IsCallback rs g r name ∧ IsCallback rs g r' name) ∧ ¬ (visitorMethods rs g).Nodup := by
  have hc : ruleCount g x.lhs ≠ 1 := fun hc => hne (ruleCount_one hx hy hxy hc)
  have k1 : IsCallback rs g r ("reduce_".toList ++ ntName g x.lhs ++ ['_'] ++ tag) := ⟨x, hx, .inr (.inl ⟨hc, tag, h1, rfl⟩)⟩
  have k2 : IsCallback rs g r' ("reduce_".toList ++ ntName g x.lhs ++ ['_'] ++ tag) := ⟨y, hy, .inr (.inl ⟨hxy ▸ hc, tag, h2, by rw [hxy]⟩)⟩
  exact ⟨⟨_, k1, k2⟩, fun hnd => hne (methods_nodup_iff.mp hnd r r' _ k1 k2)⟩

/-- the C++ generator does not panic; its `switch` has one case for each rule, in order, which calls the callback of the rule; the methods of the visitor are these -/
theorem C41_cpp (g : Grammar) : ∃ l, cppReduceSwitch g = .ok l ∧ l.map (·.1) = List.range g.rules.length ∧
    (∀ r name, (r, name) ∈ l ↔ IsCppCallback g r name) ∧ ∀ name, name ∈ cppVisitorMethods g ↔ ∃ r, IsCppCallback g r name := by
  obtain ⟨l, h1, h2, h3⟩ := cpp_switch g
  exact ⟨l, h1, h2, h3, fun name => mem_cpp_methods⟩

/-- in C++ tags play no role, so names alone decide -/
theorem C41_cpp_distinct {rs : RuleSet} {g : Grammar} (h : Grammar.fromRuleSet rs = .ok g) (hl : rs.prods.length ≤ 65536)
    (ha : ∀ p ∈ rs.prods, ¬ IsAnon p.name.toList) (hn : ∀ p ∈ rs.prods, ¬ EndsInNumber p.name.toList) :
    (cppVisitorMethods g).Nodup ∧ ∀ r r' name, IsCppCallback g r name → IsCppCallback g r' name → r = r' := by
  have key : ∀ r r' name, IsCppCallback g r name → IsCppCallback g r' name → r = r' := fun r r' name h1 h2 => callbacks_untagged h hl ha hn h1 h2
  refine ⟨?_, key⟩
  rw [cpp_methods, methods_nodup_iff]
  intro r r' name h1 h2
  exact key r r' name ((cpp_of_callback (tagOf_noTags g r)).mp h1) ((cpp_of_callback (tagOf_noTags g r')).mp h2)

theorem not_anon {l : List Char} (h : l.take 4 ≠ "anon".toList) : ¬ IsAnon l := by
  rintro ⟨n, rfl⟩
  apply h
  rfl

theorem not_number {l : List Char} (hl : '_' ∉ l) : ¬ EndsInNumber l := by
  rintro ⟨a, n, rfl⟩
  exact hl (by simp)

/-- the example grammar has a tagged production with an option: its two anonymous rules share a callback -/
theorem C41_tag_counterexample : Grammar.fromRuleSet listRules = .ok listGrammar ∧ ¬ (visitorMethods listRules listGrammar).Nodup ∧
    (visitorMethods listRules listGrammar).count "reduce_anon4_opt".toList = 2 :=
  ⟨listGrammar_built, by decide +kernel, by decide +kernel⟩

/-- without tags two names can still clash: `a` with two rules and `a_1`; and a production may have the name of an anonymous non-terminal -/
theorem C41_name_counterexample :
    (∃ rs g, Grammar.fromRuleSet rs = .ok g ∧ (∀ p ∈ rs.prods, p.tag = none ∧ ¬ IsAnon p.name.toList) ∧ ¬ (visitorMethods rs g).Nodup) ∧
    ∃ rs g, Grammar.fromRuleSet rs = .ok g ∧ (∀ p ∈ rs.prods, p.tag = none ∧ ¬ EndsInNumber p.name.toList) ∧ ¬ (visitorMethods rs g).Nodup := by
  refine ⟨⟨⟨"a", ["x"], [⟨"a", none, .rule "x"⟩, ⟨"a", none, .rule "a_1"⟩, ⟨"a_1", none, .rule "x"⟩]⟩, ⟨[⟨0, [.t 0], 0⟩, ⟨0, [.nt 2], 1⟩, ⟨2, [.t 0], 2⟩], [],
      [(.nt 0, "a"), (.nt 2, "a_1")], [(.t 0, "x")], .nt 0, 0⟩, GRes.of_same (by decide), ?_, by decide +kernel⟩,
    ⟨⟨"anon2", ["x"], [⟨"anon2", none, .optional (.rule "b")⟩, ⟨"b", none, .rule "x"⟩, ⟨"anon2", none, .rule "x"⟩]⟩,
      ⟨[⟨2, [.nt 1], 0⟩, ⟨2, [.eps], 0⟩, ⟨0, [.nt 2], 0⟩, ⟨1, [.t 0], 1⟩, ⟨0, [.t 0], 2⟩], [.nt 2], [(.nt 0, "anon2"), (.nt 1, "b")], [(.t 0, "x")], .nt 0, 0⟩,
      GRes.of_same (by decide), ?_, by decide +kernel⟩⟩
  · intro p hp
    simp only [List.mem_cons, List.not_mem_nil, or_false] at hp
    rcases hp with rfl | rfl | rfl <;> exact ⟨rfl, not_anon (by decide +kernel)⟩
  · intro p hp
    simp only [List.mem_cons, List.not_mem_nil, or_false] at hp
    rcases hp with rfl | rfl | rfl <;> exact ⟨rfl, not_number (by decide +kernel)⟩

/-! ## C42 — enum names -/

/-- the conversion to camel case panics exactly if the name has an empty segment (it is empty, begins or ends with an underscore or has two in a row) or a segment
that begins with a non-ASCII char -/
theorem C42_panics (name : List Char) : (upperCamel name = .error .panic ↔ BadSegment name) ∧ upperCamel name ≠ .error .fuel := by
  rw [upperCamel_go]
  constructor
  · rw [camelGo_panics]
    unfold BadSegment
    simp only [segStart_true]
    exact Iff.rfl
  · intro h
    have := camelGo_error _ _ _ h
    cases this

/-- two names whose segments all begin with letters are converted to the same name exactly if they are equal up to case -/
theorem C42_same {a b : List Char} (ha : GoodName a) (hb : GoodName b) :
    (∃ out, upperCamel a = .ok out) ∧ (upperCamel a = upperCamel b ↔ SameName a b) := by
  rw [goodName_iff] at ha hb
  simp only [upperCamel_go]
  obtain ⟨oa, ea⟩ := camelGo_good _ _ ha
  refine ⟨⟨oa, ea⟩, ?_, ?_⟩
  · intro e
    exact camelGo_inj a b true oa ha hb ea (e ▸ ea)
  · intro e
    exact camelGo_same a b true e

/-- hence, on names in which no letter is upper case, or no letter is lower case, the conversion is injective -/
theorem C42_injective {a b : List Char} (ha : GoodName a) (hb : GoodName b)
    (hc : (∀ c ∈ a ++ b, ¬ (65 ≤ c.toNat ∧ c.toNat ≤ 90)) ∨ ∀ c ∈ a ++ b, ¬ (97 ≤ c.toNat ∧ c.toNat ≤ 122)) (h : upperCamel a = upperCamel b) : a = b := by
  have h1 := ((C42_same ha hb).2.mp h)
  unfold SameName at h1
  have map_inj : ∀ (a b : List Char), (∀ c ∈ a, ∀ d ∈ b, asciiLower c = asciiLower d → c = d) → a.map asciiLower = b.map asciiLower → a = b := by
    intro a
    induction a with
    | nil => intro b _ h; simp at h; exact h.symm
    | cons x a ih =>
      intro b hab h
      cases b with
      | nil => simp at h
      | cons y b =>
        simp only [List.map_cons, List.cons.injEq] at h
        rw [hab x List.mem_cons_self y List.mem_cons_self h.1, ih b (fun c hc d hd => hab c (List.mem_cons_of_mem _ hc) d (List.mem_cons_of_mem _ hd)) h.2]
  apply map_inj a b _ h1
  intro c hc' d hd e
  apply char_eq_of_toNat
  have e := congrArg Char.toNat e
  rw [toNat_lower, toNat_lower] at e
  unfold lowNat at e
  rcases hc with hc | hc
  · have := hc c (List.mem_append_left _ hc')
    have := hc d (List.mem_append_right _ hd)
    split at e <;> try split at e
    all_goals omega
  · have := hc c (List.mem_append_left _ hc')
    have := hc d (List.mem_append_right _ hd)
    split at e <;> split at e <;> omega

/-- when the names of the tokens have segments that begin with letters: the variants of the Rust token enum are generated, and no variant is declared twice exactly if
no two token names are equal up to case -/
theorem C42_rust_tokens {names : List (List Char)} (hg : ∀ n ∈ names, GoodName n) :
    ∃ vs, rustTokenVariants names = .ok vs ∧ vs.length = names.length + 1 ∧ (vs.Nodup ↔ names.Pairwise (fun a b => ¬ SameName a b)) := by
  let f := fun n => "Tk".toList ++ (match upperCamel n with | .ok o => o | .error _ => [])
  have hf : ∀ n ∈ names, tokenEnumName n = .ok (f n) := by
    intro n hn
    obtain ⟨o, ho⟩ := (C42_same (hg n hn) (hg n hn)).1
    unfold tokenEnumName
    simp only [f, ho]
    rfl
  have hm : names.mapM tokenEnumName = .ok (names.map f) := mapM_ok_of hf
  refine ⟨"EndOfFile".toList :: names.map f, by unfold rustTokenVariants; rw [hm]; rfl, by simp, ?_⟩
  have h1 : "EndOfFile".toList ∉ names.map f := by
    intro h
    obtain ⟨n, -, h⟩ := List.mem_map.mp h
    have : (f n).head? = some 'T' := rfl
    rw [h] at this
    revert this
    decide
  rw [List.nodup_cons]
  simp only [h1, not_false_eq_true, true_and]
  have hinj : ∀ a ∈ names, ∀ b ∈ names, (f a = f b ↔ SameName a b) := by
    intro a ha b hb
    obtain ⟨oa, ea⟩ := (C42_same (hg a ha) (hg a ha)).1
    obtain ⟨ob, eb⟩ := (C42_same (hg b hb) (hg b hb)).1
    rw [← (C42_same (hg a ha) (hg b hb)).2]
    simp only [f, ea, eb, Except.ok.injEq]
    exact ⟨List.append_cancel_left, fun h => by rw [h]⟩
  unfold List.Nodup
  rw [List.pairwise_map]
  apply List.Pairwise.iff_of_mem
  intro a b ha hb
  rw [Ne, hinj a ha b hb]

/-- the C++ token enum has no variant twice exactly if the token names are distinct and none is `ERR` or `EOF` -/
theorem C42_cpp_tokens (names : List (List Char)) : (cppTokenVariants names).Nodup ↔ names.Nodup ∧ "ERR".toList ∉ names ∧ "EOF".toList ∉ names := by
  have hinj : (names.map (fun n => "TK_".toList ++ n)).Nodup ↔ names.Nodup := by
    unfold List.Nodup
    rw [List.pairwise_map]
    apply List.Pairwise.iff_of_mem
    intro a b _ _
    simp
  have hm : ∀ s : List Char, "TK_".toList ++ s ∈ names.map (fun n => "TK_".toList ++ n) ↔ s ∈ names := by
    intro s
    rw [List.mem_map]
    constructor
    · rintro ⟨n, hn, e⟩
      rw [← List.append_cancel_left e]
      exact hn
    · intro h
      exact ⟨s, h, rfl⟩
  have e1 : "TK_ERR".toList = "TK_".toList ++ "ERR".toList := by decide +kernel
  have e2 : "TK_EOF".toList = "TK_".toList ++ "EOF".toList := by decide +kernel
  have e3 : "TK_ERR".toList ≠ "TK_EOF".toList := by decide +kernel
  have h0 : cppTokenVariants names = "TK_ERR".toList :: "TK_EOF".toList :: names.map (fun n => "TK_".toList ++ n) := rfl
  rw [h0, List.nodup_cons, List.nodup_cons, hinj, List.mem_cons]
  have k1 := hm "ERR".toList
  have k2 := hm "EOF".toList
  rw [← e1] at k1
  rw [← e2] at k2
  rw [k1, k2]
  constructor
  · rintro ⟨h1, h2, h3⟩
    exact ⟨h3, fun h => h1 (.inr h), h2⟩
  · rintro ⟨h1, h2, h3⟩
    exact ⟨fun h => h.elim e3 h2, h3, h1⟩

/-- variants of non-terminals: when the names of the productions have segments that begin with letters, no two different names are equal up to case, and none is
`anon` and a number up to case, then different non-terminals of the grammar have different variants -/
theorem C42_non_terminals {rs : RuleSet} {g : Grammar} (h : Grammar.fromRuleSet rs = .ok g) (hl : rs.prods.length ≤ 65536)
    (hg : ∀ p ∈ rs.prods, GoodName p.name.toList)
    (hs : ∀ p ∈ rs.prods, ∀ q ∈ rs.prods, SameName p.name.toList q.name.toList → p.name = q.name)
    (ha : ∀ p ∈ rs.prods, ∀ n, ¬ SameName p.name.toList ("anon".toList ++ decimal n)) (A B : Nat) :
    (∃ v, ntEnumName g A = .ok v) ∧ (ntEnumName g A = ntEnumName g B → A = B) := by
  have nt_ok : ∀ {X : Nat} {n : String}, g.productionName (.nt X) = some n → ∃ p ∈ rs.prods, p.name = n := fun h' => (named h hl h').2
  constructor
  · unfold ntEnumName
    cases hA : g.productionName (.nt A) with
    | none => exact ⟨_, rfl⟩
    | some n =>
      obtain ⟨p, hp, rfl⟩ := nt_ok hA
      obtain ⟨o, ho⟩ := (C42_same (hg p hp) (hg p hp)).1
      simp only [ho]
      exact ⟨_, rfl⟩
  · intro e
    unfold ntEnumName at e
    have anon : ∀ (X Y : Nat) (p : ProdRule), p ∈ rs.prods → (do let c ← upperCamel p.name.toList; .ok ("Nt".toList ++ c) : Res (List Char)) ≠ .ok ("NtAnon".toList ++ decimal Y) := by
      intro X Y p hp e
      obtain ⟨o, ho⟩ := (C42_same (hg p hp) (hg p hp)).1
      rw [ho] at e
      have e' : "Nt".toList ++ o = "Nt".toList ++ ("Anon".toList ++ decimal Y) := by
        have := Except.ok.inj e
        rw [this]
        rfl
      have e' := List.append_cancel_left e'
      rw [e', ← anon_camel] at ho
      exact ha p hp Y ((C42_same (hg p hp) (goodName_iff.mpr (anon_good Y))).2.mp ho)
    cases hA : g.productionName (.nt A) with
    | some n =>
      obtain ⟨h1, p, hp, rfl⟩ := named h hl hA
      cases hB : g.productionName (.nt B) with
      | some m =>
        obtain ⟨h2, q, hq, rfl⟩ := named h hl hB
        rw [hA, hB] at e
        obtain ⟨o, ho⟩ := (C42_same (hg p hp) (hg p hp)).1
        obtain ⟨o', ho'⟩ := (C42_same (hg q hq) (hg q hq)).1
        simp only [ho, ho'] at e
        have e' := List.append_cancel_left (Except.ok.inj e)
        have := hs p hp q hq ((C42_same (hg p hp) (hg q hq)).2.mp (by rw [ho, ho', e']))
        rw [this, h2] at h1
        cases h1
        rfl
      | none =>
        rw [hA, hB] at e
        exact absurd e (anon A B p hp)
    | none =>
      cases hB : g.productionName (.nt B) with
      | some m =>
        obtain ⟨h2, q, hq, rfl⟩ := named h hl hB
        rw [hA, hB] at e
        exact absurd e.symm (anon B A q hq)
      | none =>
        rw [hA, hB] at e
        exact decimal_inj (List.append_cancel_left (Except.ok.inj e))

/-- different token names can have the same variant; names the input language admits can make the generator panic; a production can have the variant of an anonymous
non-terminal -/
theorem C42_counterexample :
    tokenEnumName "AB".toList = tokenEnumName "Ab".toList ∧ tokenEnumName "a_1".toList = tokenEnumName "a1".toList ∧
    tokenEnumName "a_".toList = .error .panic ∧ tokenEnumName "a__b".toList = .error .panic ∧
    (do let c ← upperCamel "Anon2".toList; .ok ("Nt".toList ++ c) : Res (List Char)) = .ok ("NtAnon".toList ++ decimal 2) ∧
    ¬ (cppTokenVariants ["EOF".toList]).Nodup := by
  refine ⟨by rfl, by rfl, by rfl, by rfl, by rfl, by decide +kernel⟩

/-! ## the hypotheses hold in real cases -/

/-- decides `GoodName` -/
def goodB : Bool → List Char → Bool
  | b, [] => !b
  | b, c :: cs => (!b || (65 ≤ c.toNat && c.toNat ≤ 90) || (97 ≤ c.toNat && c.toNat ≤ 122)) && goodB (c = '_') cs

theorem goodFrom_of : ∀ (l : List Char) (b : Bool), goodB b l = true → GoodFrom b l := by
  intro l
  induction l with
  | nil =>
    intro b h rest hr
    rw [(segStart_nil.mp hr).1] at h
    cases h
  | cons c cs ih =>
    intro b h rest hr
    simp only [goodB, Bool.and_eq_true, Bool.or_eq_true, Bool.not_eq_true', decide_eq_true_eq] at h
    rcases segStart_cons.mp hr with ⟨rfl, rfl⟩ | hr
    · refine ⟨c, cs, rfl, ?_⟩
      rcases h.1 with (h1 | h1) | h1
      · cases h1
      · exact .inl h1
      · exact .inr h1
    · exact ih _ h.2 rest hr

theorem goodName_of {l : List Char} (h : goodB true l = true) : GoodName l := goodName_iff.mpr (goodFrom_of l true h)

/-- the example grammar without its tag -/
def plainRules : RuleSet := { listRules with prods := listRules.prods.map (fun p => { p with tag := none }) }

theorem plain_built : Grammar.fromRuleSet plainRules = .ok listGrammar := GRes.of_same (by decide)

example : (visitorMethods plainRules listGrammar).Nodup ∧ (visitorMethods plainRules listGrammar).length = 9 := by
  refine ⟨(C41_distinct plain_built (by decide) (by decide) ?_ ?_).1, by rw [(C41_declared _ _).1]; rfl⟩
  · intro p hp
    simp only [plainRules, listRules, List.map_cons, List.map_nil, List.mem_cons, List.not_mem_nil, or_false] at hp
    rcases hp with rfl | rfl | rfl <;> exact not_anon (by decide +kernel)
  · intro p hp
    simp only [plainRules, listRules, List.map_cons, List.map_nil, List.mem_cons, List.not_mem_nil, or_false] at hp
    rcases hp with rfl | rfl | rfl <;> exact not_number (by decide +kernel)

/-- the example grammar with different tags on the two productions of `pair` and no option -/
def taggedRules : RuleSet where
  entry := "list"
  tokens := ["x", "y"]
  prods := [⟨"list", none, .rule "pair"⟩, ⟨"pair", some "two", .sequence [.rule "x", .rule "y"]⟩, ⟨"pair", some "one", .rule "y"⟩, ⟨"pair", none, .rule "x"⟩]

def taggedGrammar : Grammar where
  rules := [⟨0, [.nt 1], 0⟩, ⟨1, [.t 0, .t 1], 1⟩, ⟨1, [.t 1], 2⟩, ⟨1, [.t 0], 3⟩]
  anon := []
  productions := [(.nt 0, "list"), (.nt 1, "pair")]
  tokens := [(.t 0, "x"), (.t 1, "y")]
  entry := .nt 0
  entryOrigin := 0

theorem tagged_built : Grammar.fromRuleSet taggedRules = .ok taggedGrammar := GRes.of_same (by decide)

theorem tagged_tag {r : Nat} {tag : List Char} (h : tagOf taggedRules taggedGrammar r = some tag) : (r = 1 ∧ tag = "two".toList) ∨ (r = 2 ∧ tag = "one".toList) := by
  match r with
  | 0 => cases h
  | 1 => exact .inl ⟨rfl, (Option.some.inj h).symm⟩
  | 2 => exact .inr ⟨rfl, (Option.some.inj h).symm⟩
  | 3 => cases h
  | r + 4 =>
    have : taggedGrammar.rules[r + 4]? = none := by simp [taggedGrammar]
    simp [tagOf, this] at h

example : visitorMethods taggedRules taggedGrammar = ["reduce_list".toList, "reduce_pair_two".toList, "reduce_pair_one".toList, "reduce_pair_3".toList] := by decide +kernel

example : (visitorMethods taggedRules taggedGrammar).Nodup := by
  refine (C41_distinct_tags tagged_built (by decide) ?_ ?_ ?_).mpr ?_
  · intro p hp
    simp only [taggedRules, List.mem_cons, List.not_mem_nil, or_false] at hp
    rcases hp with rfl | rfl | rfl | rfl <;> exact not_anon (by decide +kernel)
  · intro A B s e
    have hno : '_' ∉ ntName taggedGrammar A := by
      unfold ntName
      cases h : taggedGrammar.productionName (.nt A) with
      | none => exact ntName_underscore_anon A
      | some n =>
        obtain ⟨-, p, hp, rfl⟩ := named tagged_built (by decide) h
        simp only [taggedRules, List.mem_cons, List.not_mem_nil, or_false] at hp
        rcases hp with rfl | rfl | rfl | rfl <;> simp only [] <;> decide +kernel
    rw [e] at hno
    simp at hno
  · intro r tag n h e
    have hd : ∀ c ∈ tag, c.isDigit = true := by
      rw [e]
      exact fun c hc => Nat.isDigit_of_mem_toDigits (b := 10) (by omega) (by omega) hc
    rcases tagged_tag h with ⟨-, rfl⟩ | ⟨-, rfl⟩
    · exact absurd (hd 't' (by decide +kernel)) (by decide)
    · exact absurd (hd 'o' (by decide +kernel)) (by decide)
  · intro r r' x y tag _ _ _ h1 h2
    rcases tagged_tag h1 with ⟨rfl, rfl⟩ | ⟨rfl, rfl⟩ <;> rcases tagged_tag h2 with ⟨rfl, e⟩ | ⟨rfl, e⟩
    · rfl
    · exact absurd e (by decide +kernel)
    · exact absurd e (by decide +kernel)
    · rfl

example : ∃ name, IsCallback listRules listGrammar 6 name ∧ IsCallback listRules listGrammar 7 name :=
  (C41_tag_clash (x := ⟨4, [.t 1], 2⟩) (y := ⟨4, [.eps], 2⟩) (tag := "opt".toList) rfl rfl rfl (by decide) (by decide +kernel) (by decide +kernel)).1

example : upperCamel "kw_token".toList = .ok "KwToken".toList := by rfl

example : BadSegment "a__b".toList := ((C42_panics _).1).mp (by rfl)

example : GoodName "KW_TOKEN".toList ∧ GoodName "kw_Token".toList ∧ SameName "KW_TOKEN".toList "kw_Token".toList :=
  ⟨goodName_of (by decide +kernel), goodName_of (by decide +kernel), by unfold SameName; decide +kernel⟩

example : ∃ vs, rustTokenVariants ["KW_A".toList, "KW_B".toList, "ID".toList] = .ok vs ∧ vs.Nodup := by
  obtain ⟨vs, h1, -, h2⟩ := C42_rust_tokens (names := ["KW_A".toList, "KW_B".toList, "ID".toList])
    (by intro n hn; simp only [List.mem_cons, List.not_mem_nil, or_false] at hn; rcases hn with rfl | rfl | rfl <;> exact goodName_of (by decide +kernel))
  exact ⟨vs, h1, h2.mpr (by unfold SameName; decide +kernel)⟩

example (A B : Nat) : ntEnumName listGrammar A = ntEnumName listGrammar B → A = B := by
  have hmem : ∀ p ∈ listRules.prods, p.name = "list" ∨ p.name = "pair" := by decide
  refine (C42_non_terminals listGrammar_built (by decide) ?_ ?_ ?_ A B).2
  · intro p hp
    rcases hmem p hp with h | h <;> rw [h] <;> exact goodName_of (by decide +kernel)
  · intro p hp q hq hs
    rcases hmem p hp with h | h <;> rcases hmem q hq with h' | h' <;> rw [h, h'] at hs ⊢ <;> unfold SameName at hs <;> revert hs <;> decide +kernel
  · intro p hp n hs
    unfold SameName at hs
    have : (p.name.toList.map asciiLower).head? = some 'a' := by rw [hs]; rfl
    rcases hmem p hp with h | h <;> rw [h] at this <;> revert this <;> decide +kernel

end Verif
