import Verif.Proofs.CppLRFiles
import Verif.Proofs.CppLR
import Verif.Proofs.Names

/-! # The text of the C++ LR parser: its names -/

set_option autoImplicit false

namespace Verif

theorem cppSwitch_of_mem {α : Type} {l : List (Nat × α)} (h : (l.map (·.1)).Nodup) {c : Nat × α} (hc : c ∈ l) : cppSwitch c.1 l = some c.2 := by
  induction l with
  | nil => cases hc
  | cons d l ih =>
    obtain ⟨k, a⟩ := d
    simp only [List.map_cons, List.nodup_cons] at h
    unfold cppSwitch
    rcases List.mem_cons.mp hc with rfl | hc
    · simp
    · rw [if_neg, ih h.2 hc]
      intro e
      exact h.1 (List.mem_map.mpr ⟨c, hc, e.symm⟩)

theorem isWord_append {a b : List Char} (ha : IsWord a) (hb : IsWord b) : IsWord (a ++ b) := fun c hc => (List.mem_append.mp hc).elim (ha c) (hb c)

theorem isWord_decimal (n : Nat) : IsWord (decimal n) := decimal_word n

theorem isWord_upper {w : List Char} (h : IsWord w) : IsWord (w.map asciiUpper) := by
  intro c hc
  obtain ⟨d, hd, rfl⟩ := List.mem_map.mp hc
  have := h d hd
  simp only [isCWordChar, Bool.or_eq_true, Bool.and_eq_true, decide_eq_true_eq, toNat_upper, eq_underscore] at this ⊢
  unfold upNat
  split <;> omega

theorem ntEnum_label {g : Grammar} (hg : g.WordNames) {s : Sym} {w : List Char} (h : cppNtEnumName g s = .ok w) : IsLabel w := by
  cases s with
  | nt A =>
    simp only [cppNtEnumName] at h
    cases hn : g.productionName (.nt A) with
    | some n =>
      rw [hn] at h
      cases h
      exact ⟨isWord_append (by unfold IsWord; decide) (isWord_upper (hg.2 _ (mget?_mem hn))), .inr (List.prefix_append _ _)⟩
    | none =>
      rw [hn] at h
      cases h
      exact ⟨isWord_append (by unfold IsWord; decide) (isWord_decimal A), .inr ⟨"ANON".toList ++ decimal A, rfl⟩⟩
  | _ => cases h

theorem strOk_append {a b : List Char} (ha : StrOk a) (hb : StrOk b) : StrOk (a ++ b) := fun c hc => (List.mem_append.mp hc).elim (ha c) (hb c)

theorem strOk_join : ∀ (ns : List (List Char)), (∀ n ∈ ns, StrOk n) → StrOk (joinNames ns) := by
  have q : StrOk ['\''] := by unfold StrOk; decide
  have c : StrOk ", ".toList := by unfold StrOk; decide
  intro ns
  induction ns with
  | nil => intro _ c hc; simp [joinNames] at hc
  | cons n ns ih =>
    intro h
    have hn := h n (by simp)
    cases ns with
    | nil => exact strOk_append (strOk_append q hn) q
    | cons m ns => exact strOk_append (strOk_append (strOk_append (strOk_append q hn) q) c) (ih fun x hx => h x (by simp [hx]))

theorem expectedName_str {g : Grammar} (hg : g.WordNames) {s : Sym} {ns : List (List Char)} (h : cppExpectedName g s = .ok ns) : ∀ n ∈ ns, StrOk n := by
  cases s with
  | t a =>
    simp only [cppExpectedName] at h
    obtain ⟨n, h1, h2⟩ := res_bind_ok.mp h
    cases h2
    unfold Grammar.tokenName at h1
    cases hn : mget? (Sym.t a) g.tokens with
    | none => rw [hn] at h1; cases h1
    | some m =>
      rw [hn] at h1
      cases h1
      intro n hn'
      simp only [List.mem_singleton] at hn'
      subst hn'
      exact isWord_str (hg.1 _ (mget?_mem hn))
  | eof =>
    cases h
    intro n hn
    simp only [List.mem_singleton] at hn
    subst hn
    unfold StrOk; decide
  | nt A => cases h; intro n hn; cases hn
  | eps => cases h; intro n hn; cases hn

theorem actionCases_str {g : Grammar} (hg : g.WordNames) (tb : LRTable) (q : Nat) : ∀ (ss : List Sym) {r : List (List Char × LRAction) × List (List Char)},
    cppActionCases g tb q ss = .ok r → ∀ n ∈ r.2, StrOk n := by
  intro ss
  induction ss with
  | nil => intro r h; cases h; intro n hn; cases hn
  | cons s ss ih =>
    intro r h
    unfold cppActionCases at h
    obtain ⟨e, h1, h2⟩ := res_bind_ok.mp h
    have app : ∀ {x : LRAction}, (do
        let l ← cppActionLabel g s
        let n ← cppExpectedName g s
        let r ← cppActionCases g tb q ss
        .ok ((l, x) :: r.1, n ++ r.2)) = (.ok r : Res (List (List Char × LRAction) × List (List Char))) → ∀ n ∈ r.2, StrOk n := by
      intro x h3
      obtain ⟨l, h4, h5⟩ := res_bind_ok.mp h3
      obtain ⟨ns, h6, h7⟩ := res_bind_ok.mp h5
      obtain ⟨r', h8, h9⟩ := res_bind_ok.mp h7
      cases h9
      intro n hn
      rcases List.mem_append.mp hn with hn | hn
      · exact expectedName_str hg h6 n hn
      · exact ih h8 n hn
    split at h2
    · exact app h2
    · exact app h2
    · cases h2
    · exact ih h2

theorem mapM_res_mem {α β : Type} {f : α → Res β} {xs : List α} {ys : List β} (h : xs.mapM f = .ok ys) {y : β} (hy : y ∈ ys) : ∃ x ∈ xs, f x = .ok y := by
  obtain ⟨h1, h2⟩ := mapM_ok _ _ h
  obtain ⟨i, hi, rfl⟩ := List.getElem_of_mem hy
  obtain ⟨z, h3, h4⟩ := h2 i xs[i] (List.getElem?_eq_getElem (h1 ▸ hi))
  rw [List.getElem?_eq_getElem hi] at h3
  cases h3
  exact ⟨_, List.getElem_mem _, h4⟩

theorem gotoStates_keys {g : Grammar} {tb : LRTable} : ∀ (qs : List Nat) {l : List (List (Nat × List (List Char × LRGoto) × List (List Char × LRGoto)))},
    qs.mapM (cppGotoState g tb) = .ok l → List.Sublist (l.flatten.map (·.1)) qs := by
  intro qs
  induction qs with
  | nil => intro l h; cases h; exact .slnil
  | cons q qs ih =>
    intro l h
    rw [List.mapM_cons] at h
    obtain ⟨a, h1, h2⟩ := res_bind_ok.mp h
    obtain ⟨r, h3, h4⟩ := res_bind_ok.mp h2
    cases h4
    have hr := ih h3
    unfold cppGotoState at h1
    split at h1
    · obtain ⟨ts, _, h6⟩ := res_bind_ok.mp h1
      obtain ⟨ns, _, h8⟩ := res_bind_ok.mp h6
      cases h8
      exact hr.cons_cons q
    · cases h1
      exact hr.cons q

/-- what is used of the generated source -/
structure SourceOk (src : CppLRSource) (g : Grammar) : Prop where
  tokens : ∀ n ∈ src.tokens, IsWord n
  nts : ∀ w ∈ src.nonTerminals, IsLabel w
  texts : ∀ a ∈ src.actions, StrOk a.2
  gotos : (src.gotos.map (·.1)).Nodup
  reductions : src.reductions.length = g.rules.length

theorem sourceOk {names : List (List Char)} {g : Grammar} {tb : LRTable} {src : CppLRSource} (h : genCpp names g tb = .ok src) (hn : ∀ n ∈ names, IsWord n) (hg : g.WordNames) : SourceOk src g := by
  unfold genCpp at h
  obtain ⟨nts, h1, h⟩ := res_bind_ok.mp h
  obtain ⟨actions, h2, h⟩ := res_bind_ok.mp h
  obtain ⟨gotos, h3, h⟩ := res_bind_ok.mp h
  obtain ⟨reds, h4, h⟩ := res_bind_ok.mp h
  cases h
  refine ⟨hn, ?_, ?_, (gotoStates_keys _ h3).nodup List.nodup_range, (mapM_ok _ _ h4).1⟩
  · intro w hw
    obtain ⟨s, _, hs⟩ := mapM_res_mem h1 hw
    exact ntEnum_label hg hs
  · intro a ha
    obtain ⟨q, _, hq⟩ := mapM_res_mem h2 ha
    obtain ⟨r, h5, h6⟩ := res_bind_ok.mp hq
    cases h6
    exact strOk_join _ (actionCases_str hg tb q _ h5)

theorem enumValue_mem {variants : List (List Char)} {w : List Char} {v : Nat} (h : enumValue variants w = some v) : w ∈ variants := by
  unfold enumValue at h
  obtain ⟨h1, h2, -⟩ := List.findIdx?_eq_some_iff_getElem.mp h
  simp only [decide_eq_true_eq] at h2
  exact h2 ▸ List.getElem_mem h1

theorem compileCases_mem {α : Type} {variants : List (List Char)} {cases : List (List Char × α)} {cs : List (Nat × α)} (h : compileCases variants cases = some cs) :
    ∀ c ∈ cases, c.1 ∈ variants := fun c hc => enumValue_mem ((compileCases_vals h).1 c hc)

theorem variants_label {names : List (List Char)} (hn : ∀ n ∈ names, IsWord n) : ∀ w ∈ cppTokenVariants names, IsLabel w := by
  intro w hw
  unfold cppTokenVariants at hw
  rcases List.mem_append.mp hw with hw | hw
  · simp only [List.mem_cons, List.not_mem_nil, or_false] at hw
    rcases hw with rfl | rfl <;> exact ⟨by unfold IsWord; decide, .inl (by decide)⟩
  · obtain ⟨n, h, rfl⟩ := List.mem_map.mp hw
    exact isLabel_tk (hn n h)

theorem calls_ok {g : Grammar} (hg : g.WordNames) {calls : List (Nat × List Char)} (h : cppReduceSwitch g = .ok calls) : ∀ x ∈ calls, IsWord x.2 ∧ x.2 ≠ [] ∧ x.2 ≠ "void".toList := by
  intro x hx
  obtain ⟨r, _, hr⟩ := mapM_res_mem h hx
  have hnt : ∀ A, IsWord (ntName g A) := by
    intro A
    unfold ntName
    cases hn : g.productionName (.nt A) with
    | some n => exact hg.2 _ (mget?_mem hn)
    | none => exact isWord_append (by unfold IsWord; decide) (isWord_decimal A)
  have hc : ∀ A n i, IsWord (cppCallbackName g A n i) ∧ ∃ t, cppCallbackName g A n i = 'r' :: t := by
    intro A n i
    unfold cppCallbackName
    split
    · exact ⟨isWord_append (isWord_append (isWord_append (by unfold IsWord; decide) (hnt A)) (by unfold IsWord; decide)) (isWord_decimal _), _, rfl⟩
    · exact ⟨isWord_append (by unfold IsWord; decide) (hnt A), _, rfl⟩
  split at hr
  · cases hr
  · split at hr
    · cases hr
    · cases hr
      obtain ⟨h1, t, h2⟩ := hc r.1.lhs _ _
      refine ⟨h1, ?_, ?_⟩
      · simp only; rw [h2]; simp
      · simp only; rw [h2]; intro e; have := congrArg List.head? e; simp only [List.head?_cons] at this; exact absurd this (by decide)

theorem parser_reads {names : List (List Char)} {g : Grammar} {tb : LRTable} {src : CppLRSource} (h : genCpp names g tb = .ok src) {p : CppLRProg} (hp : src.compile = some p)
    {calls : List (Nat × List Char)} (hc : cppReduceSwitch g = .ok calls) (hn : ∀ n ∈ names, IsWord n) (hg : g.WordNames) :
    CppFiles.read ⟨(cppTokensHeaderFile names).1, (cppTokensFile names).1, (cppParserFile src).1, (cppParserImplFile src calls).1⟩ =
      some ⟨srcEnums src, nameStmts names, throwStmts, actStmts src.actions, reduceStmts src.reductions, gotoStmts src.gotos, visitStmts calls, parseStmts src.entry⟩ := by
  have ok := sourceOk h hn hg
  have cp := compiled hp
  have et : src.tokens = names := by
    unfold genCpp at h
    obtain ⟨nts, h1, h⟩ := res_bind_ok.mp h
    obtain ⟨actions, h2, h⟩ := res_bind_ok.mp h
    obtain ⟨gotos, h3, h⟩ := res_bind_ok.mp h
    obtain ⟨reds, h4, h⟩ := res_bind_ok.mp h
    cases h
    rfl
  have hv := variants_label ok.tokens
  have ha : ∀ a ∈ src.actions, (∀ c ∈ a.1, IsLabel c.1) ∧ StrOk a.2 := by
    intro a ha
    refine ⟨fun c hc => ?_, ok.texts a ha⟩
    obtain ⟨i, hi⟩ := List.getElem?_of_mem ha
    rcases cp.actions i with ⟨h1, _⟩ | ⟨a', cs, h1, _, _, h4⟩
    · rw [h1] at hi; cases hi
    · rw [h1] at hi
      cases hi
      exact hv _ (compileCases_mem h4 c hc)
  have hgo : ∀ x ∈ src.gotos, (∀ c ∈ x.2.1, IsLabel c.1) ∧ ∀ c ∈ x.2.2, IsLabel c.1 := by
    intro x hx
    have hsw : cppSwitch x.1 src.gotos = some x.2 := cppSwitch_of_mem ok.gotos hx
    rcases cp.gotos x.1 with ⟨h1, _⟩ | ⟨a', ts, ns, h1, _, _, _, h5, h6⟩
    · rw [h1] at hsw; cases hsw
    · rw [h1] at hsw
      cases hsw
      exact ⟨fun c hc => hv _ (compileCases_mem h5 c hc), fun c hc => ok.nts _ (compileCases_mem h6 c hc)⟩
  have hr : ∀ x ∈ src.reductions, IsLabel x.2 := by
    intro x hx
    obtain ⟨i, hi⟩ := List.getElem?_of_mem hx
    rcases cp.reductions i with ⟨h1, _⟩ | ⟨r, v, h1, _, h3⟩
    · rw [h1] at hi; cases hi
    · rw [h1] at hi
      cases hi
      exact ok.nts _ (enumValue_mem h3)
  obtain ⟨f1, f2, f3, f4⟩ := parser_functions src ha hgo hr
  obtain ⟨i1, i2, i3⟩ := impl_functions src calls ok.nts (calls_ok hg hc) cp.nodup.2
  have t1 := tokens_enum names hn (et ▸ cp.nodup.1)
  have t2 := tokens_names names hn
  unfold reduceHead at f3
  unfold retrieveHead at f4
  unfold visitHead at i2
  unfold parseHead at i3
  unfold CppFiles.read
  simp only [t1, t2, f1, f2, f3, f4, i1, i2, i3, Option.bind_eq_bind, Option.bind_some, srcEnums, et]

section Fns

variable (u : CppUnit)

theorem fns_determine (q tk : Nat) : u.fns.determine q tk = (callC (actionMachine u.enums) u.determineAction ⟨q, tk, none⟩).map (·.2) := rfl
theorem fns_message (x : List Char) (tk : Nat) : u.fns.message x tk = (do
    let name ← callC (tokenNameMachine u.enums.tokens) u.getTokenName tk
    let r ← callC (throwMachine (name.2.getD []) x) u.throwUnexpected []
    .ok r.2) := rfl
theorem fns_reduce (i : Nat) (stack reduced : List CppSym) :
    u.fns.reduce i stack reduced = (callC (reduceMachine u.enums) u.reduceStack ⟨i, stack, reduced, none, none⟩).map fun r => (r.1.stack, r.1.reduced, r.2) := rfl
theorem fns_visit (i : Nat) : u.fns.visit i = (callC visitMachine u.reduceVisitor ⟨i, []⟩).map fun r => (r.1.called, r.2) := rfl
theorem fns_goto (q : Nat) (x : CppSym) : u.fns.goto q x = (callC (gotoMachine u.enums) u.retrieveNextState ⟨q, x, none⟩).map (·.2) := rfl

end Fns

theorem parser_runs {T : Type} {names : List (List Char)} {g : Grammar} {tb : LRTable} {src : CppLRSource} (h : genCpp names g tb = .ok src) {p : CppLRProg} (hp : src.compile = some p)
    {calls : List (Nat × List Char)} (hc : cppReduceSwitch g = .ok calls) (hn : ∀ n ∈ names, IsWord n) (hg : g.WordNames) (input : Nat → Nat × T) (n : Nat) :
    runCppParser ⟨(cppTokensHeaderFile names).1, (cppTokensFile names).1, (cppParserFile src).1, (cppParserImplFile src calls).1⟩ input n = some (textResult calls (cppLRParse p input n)) := by
  have ok := sourceOk h hn hg
  have cp := compiled hp
  have et : src.tokens = names := by
    unfold genCpp at h
    obtain ⟨nts, h1, h⟩ := res_bind_ok.mp h
    obtain ⟨actions, h2, h⟩ := res_bind_ok.mp h
    obtain ⟨gotos, h3, h⟩ := res_bind_ok.mp h
    obtain ⟨reds, h4, h⟩ := res_bind_ok.mp h
    cases h
    rfl
  obtain ⟨l, hl1, hl2, _⟩ := cpp_switch g
  rw [hc] at hl1
  cases hl1
  unfold runCppParser
  rw [parser_reads h hp hc hn hg, Option.map_some]
  congr 1
  have hnames : (cppTokenVariants names).Nodup := et ▸ cp.nodup.1
  have hnd : (calls.map (·.1)).Nodup := by rw [hl2]; exact List.nodup_range
  have msg : ∀ x tk, (callC (tokenNameMachine (srcEnums src).tokens) (nameStmts names) tk >>= fun name =>
      callC (throwMachine (name.2.getD []) x) throwStmts [] >>= fun r => Except.ok r.2) = .ok (p.message x tk) := by
    intro x tk
    have e1 : (srcEnums src).tokens = (cppTokenVariants names).zipIdx := by rw [← et]; rfl
    have e2 : p.tokens = names := by rw [cp.tokens, et]
    rw [e1, name_call names hnames tk, res_bind_of_ok, throw_call, res_bind_of_ok]
    unfold CppLRProg.message CppLRProg.tokenName
    rw [e2]
  have fns : FnsOk (CppUnit.fns ⟨srcEnums src, nameStmts names, throwStmts, actStmts src.actions, reduceStmts src.reductions, gotoStmts src.gotos, visitStmts calls, parseStmts src.entry⟩) p calls := by
    refine ⟨fun q tk => ?_, fun x tk => ?_, fun i stack reduced => ?_, fun i => ?_, fun q x => ?_⟩
    · rw [fns_determine]
      exact action_call cp q tk
    · rw [fns_message]
      exact msg x tk
    · rw [fns_reduce]
      exact reduce_call cp i stack reduced
    · rw [fns_visit]
      exact visit_call calls hnd i
    · rw [fns_goto]
      exact goto_call cp ok.gotos q x
  have := parse_run fns (fun i k hk => ?_) input n
  · rw [← this, cp.entry]
  · have hi : i < g.rules.length := by
      rcases cp.reductions i with ⟨_, h2⟩ | ⟨r, v, h1, _, _⟩
      · rw [h2] at hk; cases hk
      · rw [← ok.reductions]
        exact getElem?_lt h1
    have hm : i ∈ calls.map (·.1) := by rw [hl2]; exact List.mem_range.mpr hi
    obtain ⟨c, hc1, hc2⟩ := List.mem_map.mp hm
    refine ⟨c.2, ?_⟩
    rw [← hc2]
    exact cppSwitch_of_mem hnd hc1

end Verif
