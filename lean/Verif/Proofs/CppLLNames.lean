import Verif.Proofs.CppLLDriver
import Verif.Proofs.CppVisitor
import Verif.Proofs.LLTable

/-! # The text of the C++ LL parser: its names -/

set_option autoImplicit false

namespace Verif

variable {g : Grammar} {table : LLTable} {tokens : List (List Char)}

/-- the right sides in the table are those of rules -/
def FromRules (g : Grammar) (table : LLTable) : Prop := ∀ A a p, table.getProduction A (.t a) = some p → ∃ r ∈ g.rules, r.rhs = p

/-! ## The source -/

/-- what is written for a symbol -/
def pushedOf (g : Grammar) : Sym → LLPushed
  | .nt A => .nt (symLabel g (.nt A))
  | .t a => .tk (symLabel g (.t a))
  | .eps => .eps
  | .eof => .skip

/-- the cases of a non-terminal -/
def llCasesOf (g : Grammar) (table : LLTable) (A : Nat) : List (List Char × List LLPushed) :=
  g.terminals.filterMap fun s => ((table.getProduction A s).map fun p => p.reverse.map (pushedOf g)).map fun ps => (symLabel g s, ps)

/-- the case of a non-terminal -/
def llStateOf (g : Grammar) (table : LLTable) : Sym → Nat × List (List Char × List LLPushed) × List Char
  | .nt A => (A, llCasesOf g table A, llTableMessage g table A)
  | _ => (0, [], [])

/-- the generated source -/
def llSourceOf (tokens : List (List Char)) (g : Grammar) (table : LLTable) : CppLLSource where
  tokens := tokens
  nonTerminals := g.nonTerminals.map (symLabel g)
  named := g.productions.map fun x => (symLabel g x.1, x.2.toList)
  table := g.nonTerminals.map (llStateOf g table)

theorem mget?_nodup {α ν : Type} [Key α] {m : List (α × ν)} (h : (m.map (·.1)).Nodup) {k : α} {v : ν} (hm : (k, v) ∈ m) : mget? k m = some v := by
  obtain ⟨v', h1⟩ := Option.isSome_iff_exists.mp (mget?_isSome_of_key ⟨_, hm, rfl⟩)
  have h2 := mget?_mem h1
  obtain ⟨i, hi, e1⟩ := List.getElem_of_mem hm
  obtain ⟨j, hj, e2⟩ := List.getElem_of_mem h2
  have : i = j := by
    refine (List.Nodup.getElem_inj_iff h (hi := by simpa using hi) (hj := by simpa using hj)).mp ?_
    rw [List.getElem_map, List.getElem_map, e1, e2]
  subst this
  rw [e1] at e2
  rw [h1, (Prod.mk.inj e2).2]

theorem flatten_toList {α β : Type} (f : α → Option β) (l : List α) : (l.map fun x => (f x).toList).flatten = l.filterMap f := by
  induction l with
  | nil => rfl
  | cons x l ih =>
    rw [List.map_cons, List.flatten_cons, ih, List.filterMap_cons]
    cases f x <;> rfl

theorem token_key (wf : g.WF) {x : Sym × String} (hx : x ∈ g.tokens) : ∃ a, x.1 = .t a ∧ tkName g a = x.2.toList ∧ Sym.t a ∈ g.terminals := by
  have hm : x.1 ∈ g.terminals := List.mem_map.mpr ⟨x, hx, rfl⟩
  obtain ⟨a, e⟩ := wf.ts _ hm
  refine ⟨a, e, ?_, e ▸ hm⟩
  have : mget? (Sym.t a) g.tokens = some x.2 := mget?_nodup wf.nodup_t (by rw [← e]; exact hx)
  simp [tkName, this]

theorem llPushed_ok (wf : g.WF) {r : Rule} (hr : r ∈ g.rules) {s : Sym} (hs : s ∈ r.rhs) : llPushed g s = .ok (pushedOf g s) := by
  cases s with
  | nt A => simp only [llPushed, ntEnum_ok, res_bind_of_ok]; rfl
  | t a => simp only [llPushed, tokenName_ok (wf.t_declared r hr a hs), res_bind_of_ok]; rfl
  | eps => rfl
  | eof => rfl

theorem llState_ok (wf : g.WF) (hT : FromRules g table) {s : Sym} (hs : s ∈ g.nonTerminals) : llTableState g table s = .ok (llStateOf g table s) := by
  obtain ⟨A, rfl⟩ := wf.nts s hs
  have h1 : g.tokens.mapM (llTableCase g table A) = .ok (g.tokens.map fun x => (((table.getProduction A x.1).map fun p => p.reverse.map (pushedOf g)).map fun ps => (symLabel g x.1, ps)).toList) := by
    refine mapM_eq_ok _ fun x hx => ?_
    obtain ⟨a, e1, e2, e3⟩ := token_key wf hx
    unfold llTableCase
    rw [e1]
    cases hp : table.getProduction A (.t a) with
    | none => rfl
    | some p =>
      obtain ⟨r, hr, e⟩ := hT _ _ _ hp
      simp only
      rw [mapM_eq_ok p.reverse (h := pushedOf g) fun s hs => llPushed_ok wf hr (e ▸ List.mem_reverse.mp hs), res_bind_of_ok, ← e2]
      rfl
  unfold llTableState
  simp only
  rw [h1, res_bind_of_ok, flatten_toList]
  unfold llStateOf llCasesOf Grammar.terminals
  simp only [List.filterMap_map, Function.comp_def]

theorem production_name (wf : g.WF) {x : Sym × String} (hx : x ∈ g.productions) : g.productionName x.1 = some x.2 := by
  have : (g.productions.map (·.1)).Nodup := by
    have := wf.nodup
    unfold Grammar.nonTerminals at this
    exact (List.nodup_append.mp this).1
  exact mget?_nodup this hx

theorem anon_name (wf : g.WF) {s : Sym} (hs : s ∈ g.anon) : g.productionName s = none := by
  cases h : g.productionName s with
  | none => rfl
  | some n =>
    have h1 : s ∈ g.productions.map (·.1) := List.mem_map.mpr ⟨_, mget?_mem h, rfl⟩
    have h2 := wf.nodup
    unfold Grammar.nonTerminals at h2
    exact absurd rfl ((List.nodup_append.mp h2).2.2 _ h1 _ hs)

theorem genCppLL_eq (wf : g.WF) (hT : FromRules g table) (tokens : List (List Char)) : genCppLL tokens g table = .ok (llSourceOf tokens g table) := by
  have h1 : g.nonTerminals.mapM (cppNtEnumName g) = .ok (g.nonTerminals.map (symLabel g)) := by
    refine mapM_eq_ok _ fun s hs => ?_
    obtain ⟨A, rfl⟩ := wf.nts s hs
    exact ntEnum_ok A
  have h2 : g.nonTerminals.mapM (llNamed g) = .ok (g.nonTerminals.map fun s => ((g.productionName s).map fun n => (symLabel g s, n.toList)).toList) := by
    refine mapM_eq_ok _ fun s hs => ?_
    obtain ⟨A, rfl⟩ := wf.nts s hs
    unfold llNamed
    cases g.productionName (.nt A) with
    | none => rfl
    | some n => simp only [ntEnum_ok, res_bind_of_ok]; rfl
  have h3 : (g.nonTerminals.map fun s => ((g.productionName s).map fun n => (symLabel g s, n.toList)).toList).flatten = g.productions.map fun x => (symLabel g x.1, x.2.toList) := by
    rw [flatten_toList]
    unfold Grammar.nonTerminals
    rw [List.filterMap_append, List.filterMap_map]
    have e1 : g.anon.filterMap (fun s => (g.productionName s).map fun n => (symLabel g s, n.toList)) = [] := by
      rw [List.filterMap_eq_nil_iff]
      intro s hs
      rw [anon_name wf hs]
      rfl
    rw [e1, List.append_nil]
    have : ∀ x ∈ g.productions, ((fun s => (g.productionName s).map fun n => (symLabel g s, n.toList)) ∘ fun x : Sym × String => x.1) x = some (symLabel g x.1, x.2.toList) := by
      intro x hx
      simp only [Function.comp_apply, production_name wf hx]
      rfl
    rw [List.filterMap_congr this, ← List.filterMap_eq_map]
    rfl
  have h4 : g.nonTerminals.mapM (llTableState g table) = .ok (g.nonTerminals.map (llStateOf g table)) := mapM_eq_ok _ fun s hs => llState_ok wf hT hs
  obtain ⟨A, e, _⟩ := wf.entry_declared
  unfold genCppLL
  rw [e]
  simp only
  rw [h1, res_bind_of_ok, h2, res_bind_of_ok, h4, res_bind_of_ok, h3]
  rfl

/-! ## Values -/

theorem enumVal_of {variants : List (List Char)} {ss : List Sym} {lab : Sym → List Char} {val : Sym → Nat} (hv : variants.Nodup) (h : Numbered variants ss lab val) {s : Sym} (hs : s ∈ ss) :
    enumValue variants (lab s) = some (val s) ∧ enumVal variants (lab s) = val s := by
  have : enumValue variants (lab s) = some (val s) := findIdx?_nodup _ _ _ hv (h.value s hs)
  exact ⟨this, by unfold enumVal; rw [this]; rfl⟩

section Source

variable (wf : g.WF) (hk : TokensOk tokens g) (hv : (cppTokenVariants tokens).Nodup) (hn : (g.nonTerminals.map (symLabel g)).Nodup)
include wf hk hv hn

theorem pushed_known {r : Rule} (hr : r ∈ g.rules) {s : Sym} (hs : s ∈ r.rhs) : PushedKnown (llSourceOf tokens g table) (pushedOf g s) := by
  cases s with
  | nt A =>
    have := enumVal_of hn (nts_numbered wf) (wf.nt_declared r hr A hs)
    show enumValue (g.nonTerminals.map (symLabel g)) _ = some (enumVal (g.nonTerminals.map (symLabel g)) _)
    rw [this.2, this.1]
  | t a =>
    have := enumVal_of hv (tokens_numbered wf hk hv) (List.mem_append_left _ (wf.t_declared r hr a hs))
    show enumValue (cppTokenVariants tokens) _ = some (enumVal (cppTokenVariants tokens) _)
    rw [this.2, this.1]
  | eps => trivial
  | eof => trivial

theorem pushed_syms {r : Rule} (hr : r ∈ g.rules) : ∀ (p : List Sym), (∀ s ∈ p, s ∈ r.rhs) → (p.map (pushedOf g)).filterMap (pushedSym (llSourceOf tokens g table)) = (llPush (ordinal g) p).map llcSym := by
  intro p
  induction p with
  | nil => intro _; rfl
  | cons s p ih =>
    intro h
    have ih := ih fun x hx => h x (List.mem_cons_of_mem _ hx)
    have hs := h s List.mem_cons_self
    rw [List.map_cons]
    cases s with
    | nt A =>
      have := enumVal_of hn (nts_numbered wf) (wf.nt_declared r hr A hs)
      have e : pushedSym (llSourceOf tokens g table) (pushedOf g (.nt A)) = some ⟨.nonTerminal, ordinal g A⟩ := by
        show some (LLCSym.mk .nonTerminal (enumVal (g.nonTerminals.map (symLabel g)) (symLabel g (.nt A)))) = _
        rw [this.2]; rfl
      rw [List.filterMap_cons_some e, ih]
      rfl
    | t a =>
      have := enumVal_of hv (tokens_numbered wf hk hv) (List.mem_append_left _ (wf.t_declared r hr a hs))
      have e : pushedSym (llSourceOf tokens g table) (pushedOf g (.t a)) = some ⟨.terminal, a + 2⟩ := by
        show some (LLCSym.mk .terminal (enumVal (cppTokenVariants tokens) (symLabel g (.t a)))) = _
        rw [this.2]; rfl
      rw [List.filterMap_cons_some e, ih]
      rfl
    | eps => rw [List.filterMap_cons_none rfl, ih]; rfl
    | eof => rw [List.filterMap_cons_none rfl, ih]; rfl

theorem state_known (hT : FromRules g table) {x : Nat × List (List Char × List LLPushed) × List Char} (hx : x ∈ (llSourceOf tokens g table).table) : LLStateKnown (llSourceOf tokens g table) x.2 := by
  obtain ⟨s, hs, rfl⟩ := List.mem_map.mp hx
  obtain ⟨A, rfl⟩ := wf.nts s hs
  have hnum := numbered_sub (tokens_numbered wf hk hv) (fun s h => List.mem_append_left [Sym.eof] h)
  refine ⟨?_, ?_, ?_⟩
  · intro c hc
    obtain ⟨s', h1, h2⟩ := List.mem_filterMap.mp hc
    obtain ⟨ps, _, rfl⟩ := Option.map_eq_some_iff.mp h2
    have := enumVal_of hv hnum h1
    show enumValue (cppTokenVariants tokens) _ = some (enumVal (cppTokenVariants tokens) _)
    rw [this.2, this.1]
  · exact filterMap_labels_nodup hv (fun s => (table.getProduction A s).map fun p => p.reverse.map (pushedOf g)) g.terminals wf.nodup_t hnum
  · intro c hc p hp
    obtain ⟨s', h1, h2⟩ := List.mem_filterMap.mp hc
    obtain ⟨ps, h3, rfl⟩ := Option.map_eq_some_iff.mp h2
    obtain ⟨rhs, h4, rfl⟩ := Option.map_eq_some_iff.mp h3
    obtain ⟨a, rfl⟩ := wf.ts s' h1
    obtain ⟨r, hr, e⟩ := hT _ _ _ h4
    obtain ⟨s'', h5, rfl⟩ := List.mem_map.mp hp
    exact pushed_known wf hk hv hn hr (e ▸ List.mem_reverse.mp h5)

omit hk hv hn in
theorem states_keys : ((llSourceOf tokens g table).table.map (·.1)).Nodup := by
  show ((g.nonTerminals.map (llStateOf g table)).map (·.1)).Nodup
  rw [List.map_map]
  refine List.Nodup.map_on ?_ wf.nodup
  intro s hs s' hs' e
  obtain ⟨A, rfl⟩ := wf.nts s hs
  obtain ⟨B, rfl⟩ := wf.nts s' hs'
  have e : A = B := e
  rw [e]

omit hk hv hn in
theorem states_switch (A : Nat) : cppSwitch A (llSourceOf tokens g table).table = if Sym.nt A ∈ g.nonTerminals then some (llCasesOf g table A, llTableMessage g table A) else none := by
  split
  · rename_i h
    exact cppSwitch_of_mem (states_keys wf) (c := llStateOf g table (.nt A)) (List.mem_map.mpr ⟨_, h, rfl⟩)
  · rename_i h
    cases hs : cppSwitch A (llSourceOf tokens g table).table with
    | none => rfl
    | some x =>
      obtain ⟨s, h1, h2⟩ := List.mem_map.mp (cppSwitch_mem hs)
      obtain ⟨B, rfl⟩ := wf.nts s h1
      have : B = A := congrArg Prod.fst h2
      exact absurd (this ▸ h1) h

theorem cases_switch (A : Nat) (t : Tok) (ht : ∀ a, t = .tok a → Sym.t a ∈ g.terminals) :
    cppSwitch (tokenCode t) ((llCasesOf g table A).map fun c => (enumVal (cppTokenVariants (llSourceOf tokens g table).tokens) c.1, c.2)) =
      match t with
      | .tok a => (table.getProduction A (.t a)).map fun p => p.reverse.map (pushedOf g)
      | _ => none := by
  have hnum := numbered_sub (tokens_numbered wf hk hv) (fun s h => List.mem_append_left [Sym.eof] h)
  have e : (llCasesOf g table A).map (fun c => (enumVal (cppTokenVariants (llSourceOf tokens g table).tokens) c.1, c.2)) =
      g.terminals.filterMap fun s => ((table.getProduction A s).map fun p => p.reverse.map (pushedOf g)).map fun ps => (symVal g s, ps) := by
    unfold llCasesOf
    rw [List.map_filterMap]
    refine List.filterMap_congr fun s hs => ?_
    rw [Option.map_map]
    refine congrArg (fun f => Option.map f _) ?_
    funext ps
    simp only [Function.comp_apply]
    rw [show (llSourceOf tokens g table).tokens = tokens from rfl, (enumVal_of hv hnum hs).2]
  rw [e]
  have hne : ∀ v, v < 2 → ∀ s ∈ g.terminals, symVal g s ≠ v := by
    intro v hv s hs
    obtain ⟨a, rfl⟩ := wf.ts s hs
    show a + 2 ≠ v
    omega
  cases t with
  | err => exact cppSwitch_filterMap _ 0 _ (hne 0 (by omega))
  | eof => exact cppSwitch_filterMap _ 1 _ (hne 1 (by omega))
  | tok a => exact cppSwitch_symbol (val := symVal g) (fun s => (table.getProduction A s).map fun p => p.reverse.map (pushedOf g)) (.t a) _ (ht a rfl) fun s hs e => hnum.inj s hs _ (ht a rfl) e

omit hv hn in
theorem expected_names (A : Nat) (x : List Char) : x ∈ ((g.tokens.filter fun x => (table.getProduction A x.1).isSome).map fun x => x.2.toList) ↔
    ∃ a, (table.getProduction A (.t a)).isSome ∧ tokens[a]? = some x := by
  rw [List.mem_map]
  constructor
  · rintro ⟨y, h1, rfl⟩
    obtain ⟨h2, h3⟩ := List.mem_filter.mp h1
    obtain ⟨a, e1, e2, e3⟩ := token_key wf h2
    exact ⟨a, by rw [← e1]; exact h3, by rw [hk.name a e3, e2]⟩
  · rintro ⟨a, h1, h2⟩
    have h3 : Sym.t a ∈ g.terminals := (hk.mem a).mpr (List.getElem?_eq_some_iff.mp h2).1
    obtain ⟨y, h4, e⟩ := List.mem_map.mp h3
    obtain ⟨b, e1, e2, e3⟩ := token_key wf h4
    have : b = a := by rw [e] at e1; cases e1; rfl
    subst this
    refine ⟨y, List.mem_filter.mpr ⟨h4, by rw [e]; exact h1⟩, ?_⟩
    rw [hk.name b e3, Option.some.injEq] at h2
    rw [← e2, h2]

omit hv hn in
theorem table_message {A : Nat} (hA : Sym.nt A ∈ g.nonTerminals) {t : Tok} (ht : ∀ a, t = .tok a → table.getProduction A (.t a) = none) : LLMessage tokens g table t (llTableMessage g table A) := by
  unfold llTableMessage
  cases h : g.productionName (.nt A) with
  | some name => exact .named A name _ h ht (expected_names wf hk A)
  | none =>
    refine .anonymous A _ ?_ ht (expected_names wf hk A)
    unfold Grammar.nonTerminals at hA
    rcases List.mem_append.mp hA with h1 | h1
    · obtain ⟨x, hx, e⟩ := List.mem_map.mp h1
      have := production_name wf hx
      rw [e, h] at this
      cases this
    · exact h1

theorem ordinal_production {i : Nat} {x : Sym × String} (h : g.productions[i]? = some x) : symVal g x.1 = i ∧ x.1 ∈ g.nonTerminals := by
  have h1 : g.nonTerminals[i]? = some x.1 := by
    unfold Grammar.nonTerminals
    have hi := (List.getElem?_eq_some_iff.mp h).1
    rw [List.getElem?_append_left (by simpa using hi), List.getElem?_map, h]
    rfl
  have hm := List.mem_of_getElem? h1
  refine ⟨?_, hm⟩
  obtain ⟨A, e⟩ := wf.nts _ hm
  rw [e] at h1 ⊢
  obtain ⟨hi, h2⟩ := List.getElem?_eq_some_iff.mp h1
  show g.nonTerminals.idxOf (.nt A) = i
  rw [← h2]
  exact wf.nodup.idxOf_getElem i hi

theorem named_switch (i : Nat) : cppSwitch i ((llSourceOf tokens g table).named.map fun c => (enumVal (llSourceOf tokens g table).nonTerminals c.1, c.2)) = (g.productions[i]?).map fun x => x.2.toList := by
  have e : (llSourceOf tokens g table).named.map (fun c => (enumVal (llSourceOf tokens g table).nonTerminals c.1, c.2)) = (g.productions.map fun x => x.2.toList).zipIdx.map fun x => (x.2, x.1) := by
    refine List.ext_getElem? fun k => ?_
    show ((g.productions.map fun x => (symLabel g x.1, x.2.toList)).map (fun c => (enumVal (g.nonTerminals.map (symLabel g)) c.1, c.2)))[k]? = _
    rw [List.getElem?_map, List.getElem?_map, List.getElem?_map, List.getElem?_zipIdx, List.getElem?_map]
    cases hx : g.productions[k]? with
    | none => rfl
    | some x =>
      have := ordinal_production wf hk hv hn hx
      simp only [Option.map_some, (enumVal_of hn (nts_numbered wf) this.2).2, this.1, Nat.zero_add]
  rw [e, cppSwitch_zipIdx, List.getElem?_map]

theorem named_known : (∀ c ∈ (llSourceOf tokens g table).named, enumValue (llSourceOf tokens g table).nonTerminals c.1 = some (enumVal (llSourceOf tokens g table).nonTerminals c.1)) ∧
    ((llSourceOf tokens g table).named.map (·.1)).Nodup := by
  constructor
  · intro c hc
    obtain ⟨x, hx, rfl⟩ := List.mem_map.mp hc
    obtain ⟨i, hi⟩ := List.getElem?_of_mem hx
    have := enumVal_of hn (nts_numbered wf) (ordinal_production wf hk hv hn hi).2
    show enumValue (g.nonTerminals.map (symLabel g)) _ = some (enumVal (g.nonTerminals.map (symLabel g)) _)
    rw [this.2, this.1]
  · show ((g.productions.map fun x => (symLabel g x.1, x.2.toList)).map (·.1)).Nodup
    have h := hn
    unfold Grammar.nonTerminals at h
    rw [List.map_append, List.map_map] at h
    rw [List.map_map]
    exact (List.nodup_append.mp h).1

end Source

theorem code_name (names : List (List Char)) (t : Tok) : (["<ERR>".toList, "<EOF>".toList] ++ names)[tokenCode t]?.getD [] = codeTokName names t := by
  cases t with
  | err => rfl
  | eof => rfl
  | tok a => simp [tokenCode, codeTokName]

/-- the functions in the files -/
def llUnitOf (src : CppLLSource) : CppLLUnit :=
  ⟨llEnums src, nameStmts src.tokens, llTableStmts src.table, llThrowStmts, llVisitStmts "exit_".toList src.named, llVisitStmts "enter_".toList src.named, llParseStmts⟩

theorem llFns_ok {T : Type} (wf : g.WF) (hk : TokensOk tokens g) (hv : (cppTokenVariants tokens).Nodup) (hn : (g.nonTerminals.map (symLabel g)).Nodup) (hT : FromRules g table) :
    LLFnsOk (T := T) (llUnitOf (llSourceOf tokens g table)).fns (cppDispatch g table) (cppVisible g) (llTextEvent g) (LLMessage tokens g table) (fun t => ∀ a, t = .tok a → Sym.t a ∈ g.terminals) := by
  have visit : ∀ (pre : List Char) (id : Nat) (ev : Nat → LLEvent T), (llTextEvent g (ev id) = .call (pre ++ ((g.productions[id]?).map fun x => x.2.toList).getD [])) →
      ∃ v, callVoid (llVisitMachine (llEnums (llSourceOf tokens g table))) (llVisitStmts pre (llSourceOf tokens g table).named) ⟨id, []⟩ = .ok (.returned v) ∧
        v.called.map (LLTextEvent.call (T := T)) = if cppVisible g id then [llTextEvent g (ev id)] else [] := by
    intro pre id ev he
    have hc := llVisit_call (llSourceOf tokens g table) pre (named_known wf hk hv hn).1 (named_known wf hk hv hn).2 id
    refine ⟨_, hc, ?_⟩
    rw [named_switch wf hk hv hn, he]
    unfold cppVisible
    cases hp : g.productions[id]? with
    | none =>
      have : ¬ id < g.productions.length := by rw [List.getElem?_eq_none_iff] at hp; omega
      simp [this]
    | some x =>
      have : id < g.productions.length := (List.getElem?_eq_some_iff.mp hp).1
      simp [this]
  refine ⟨?_, fun id => visit _ id .enter rfl, fun id => visit _ id .exit rfl, ?_, fun _ _ => rfl⟩
  · intro id t stack ht
    have hc := push_call (llSourceOf tokens g table) (fun x hx => state_known wf hk hv hn hT hx) (states_keys wf) ⟨.nonTerminal, id⟩ (tokenCode t) stack
    simp only [states_switch wf] at hc
    unfold cppDispatch
    by_cases hid : Sym.nt id ∈ g.nonTerminals
    · simp only [if_pos hid] at hc ⊢
      rw [cases_switch wf hk hv hn id t ht] at hc
      have hnone : (∀ a, t = .tok a → table.getProduction id (.t a) = none) →
          callVoid (pushMachine (llEnums (llSourceOf tokens g table))) (llTableStmts (llSourceOf tokens g table).table) ⟨⟨.nonTerminal, id⟩, tokenCode t, stack, []⟩ = .ok (.thrown (llTableMessage g table id)) →
          ∃ m, (llUnitOf (llSourceOf tokens g table)).fns.push ⟨.nonTerminal, id⟩ (tokenCode t) stack = .ok (.thrown m) ∧ LLMessage tokens g table t m :=
        fun h1 h2 => ⟨_, h2, table_message wf hk hid h1⟩
      cases t with
      | err => exact hnone (fun a e => by cases e) hc
      | eof => exact hnone (fun a e => by cases e) hc
      | tok a =>
        simp only [if_pos (ht a rfl)]
        cases hp : table.getProduction id (.t a) with
        | none =>
          simp only [hp, Option.map_none] at hc
          exact hnone (fun a' e => by cases e; exact hp) hc
        | some p =>
          simp only [hp, Option.map_some] at hc
          obtain ⟨v, h1, h2⟩ := hc
          obtain ⟨r, hr, e⟩ := hT _ _ _ hp
          refine ⟨v, h1, ?_⟩
          rw [h2, List.map_reverse, List.filterMap_reverse, List.reverse_reverse, pushed_syms wf hk hv hn hr p (fun s hs => e ▸ hs)]
    · simp only [if_neg hid] at hc ⊢
      exact ⟨_, hc, rfl⟩
  · intro t t' _ hne
    refine ⟨llUnexpected (codeTokName tokens t') (codeTokName tokens t), ?_, .unexpected t hne⟩
    show (do
      let e ← callC (tokenNameMachine (cppTokenVariants tokens).zipIdx) (nameStmts tokens) (tokenCode t)
      let g ← callC (tokenNameMachine (cppTokenVariants tokens).zipIdx) (nameStmts tokens) (tokenCode t')
      let r ← callC (llThrowMachine (g.2.getD []) (e.2.getD [])) llThrowStmts []
      (.ok r.2 : Res (List Char))) = _
    rw [name_call tokens hv, res_bind_of_ok, name_call tokens hv, res_bind_of_ok, code_name, code_name, llThrow_call, res_bind_of_ok]

/-! ## Reading -/

theorem strOk_intercalate : ∀ (ns : List (List Char)), (∀ n ∈ ns, StrOk n) → StrOk (List.intercalate ", ".toList ns) := by
  have c : StrOk ", ".toList := by unfold StrOk; decide
  intro ns
  induction ns with
  | nil => intro _ c hc; simp [List.intercalate] at hc
  | cons n ns ih =>
    intro h
    have hn := h n (by simp)
    cases ns with
    | nil => simpa [List.intercalate] using hn
    | cons m ns =>
      rw [show List.intercalate ", ".toList (n :: m :: ns) = n ++ (", ".toList ++ List.intercalate ", ".toList (m :: ns)) by simp [List.intercalate, List.intersperse]]
      exact strOk_append hn (strOk_append c (ih fun x hx => h x (by simp [hx])))

theorem message_str (hg : g.WordNames) (A : Nat) : StrOk (llTableMessage g table A) := by
  unfold llTableMessage
  refine strOk_append ?_ (strOk_intercalate _ ?_)
  · cases h : g.productionName (.nt A) with
    | none => unfold StrOk; decide
    | some n => exact strOk_append (strOk_append (by unfold StrOk; decide) (isWord_str (hg.2 _ (mget?_mem h)))) (by unfold StrOk; decide)
  · intro n hn
    obtain ⟨x, hx, rfl⟩ := List.mem_map.mp hn
    exact isWord_str (hg.1 x (List.mem_filter.mp hx).1)

theorem nt_label (hg : g.WordNames) (A : Nat) : IsLabel (symLabel g (.nt A)) := ntEnum_label hg (ntEnum_ok A)

theorem tk_label (hg : g.WordNames) {a : Nat} : IsLabel (symLabel g (.t a)) := by
  refine isLabel_tk ?_
  unfold tkName
  cases h : mget? (Sym.t a) g.tokens with
  | none => intro c hc; simp at hc
  | some n => exact hg.1 _ (mget?_mem h)

theorem states_ok (wf : g.WF) (hg : g.WordNames) : ∀ x ∈ (llSourceOf tokens g table).table, LLStateOk x := by
  intro x hx
  obtain ⟨s, hs, rfl⟩ := List.mem_map.mp hx
  obtain ⟨A, rfl⟩ := wf.nts s hs
  refine ⟨?_, message_str hg A⟩
  intro c hc
  obtain ⟨s', h1, h2⟩ := List.mem_filterMap.mp hc
  obtain ⟨ps, h3, rfl⟩ := Option.map_eq_some_iff.mp h2
  obtain ⟨rhs, h4, rfl⟩ := Option.map_eq_some_iff.mp h3
  obtain ⟨a, rfl⟩ := wf.ts s' h1
  refine ⟨tk_label hg, ?_⟩
  intro p hp
  obtain ⟨s'', h5, rfl⟩ := List.mem_map.mp hp
  cases s'' with
  | nt B => exact nt_label hg B
  | t b => exact tk_label hg
  | eps => trivial
  | eof => trivial

theorem named_ok (wf : g.WF) (hg : g.WordNames) : ∀ x ∈ (llSourceOf tokens g table).named, IsLabel x.1 ∧ IsWord x.2 := by
  intro x hx
  obtain ⟨y, hy, rfl⟩ := List.mem_map.mp hx
  obtain ⟨A, e⟩ := wf.nts y.1 (List.mem_append_left _ (List.mem_map.mpr ⟨y, hy, rfl⟩))
  refine ⟨?_, hg.2 y hy⟩
  simp only [e]
  exact nt_label hg A

theorem ll_reads (wf : g.WF) (hg : g.WordNames) (hw : ∀ n ∈ tokens, IsWord n) (hv : (cppTokenVariants tokens).Nodup) (hn : (g.nonTerminals.map (symLabel g)).Nodup) (entry : List Char) :
    CppFiles.readLL ⟨(cppTokensHeaderFile tokens).1, (cppTokensFile tokens).1, (cppLLParserFile (llSourceOf tokens g table)).1, (cppLLParserImplFile (llSourceOf tokens g table) entry).1⟩ =
      some (llUnitOf (llSourceOf tokens g table)) := by
  obtain ⟨f1, f2⟩ := llParser_functions (llSourceOf tokens g table) (states_ok wf hg)
  obtain ⟨i1, i2, i3, i4⟩ := llImpl_functions (llSourceOf tokens g table) entry (by
    intro w hw
    obtain ⟨s, hs, rfl⟩ := List.mem_map.mp hw
    obtain ⟨A, rfl⟩ := wf.nts s hs
    exact nt_label hg A) (named_ok wf hg) hn
  have t1 := tokens_enum tokens hw hv
  have t2 := tokens_names tokens hw
  unfold pushHead at f1
  unfold llThrowHead at f2
  unfold exitHead at i2
  unfold enterHead at i3
  unfold parseHead at i4
  unfold CppFiles.readLL llUnitOf llEnums
  simp only [t1, t2, f1, f2, i1, i2, i3, i4, Option.bind_eq_bind, Option.bind_some]
  rfl

theorem ll_runs {T : Type} (wf : g.WF) (hg : g.WordNames) (hw : ∀ n ∈ tokens, IsWord n) (hk : TokensOk tokens g) (hv : (cppTokenVariants tokens).Nodup)
    (hn : (g.nonTerminals.map (symLabel g)).Nodup) (hT : FromRules g table) (label : List Char) (entry : Nat) (input : Nat → Tok × T) (hin : TokensBelow tokens.length input) (n : Nat) :
    ∃ r, runCppLL ⟨(cppTokensHeaderFile tokens).1, (cppTokensFile tokens).1, (cppLLParserFile (llSourceOf tokens g table)).1, (cppLLParserImplFile (llSourceOf tokens g table) label).1⟩ entry
        (codeInput input) n = some r ∧ LLSame tokens g table input (llParse (cppDispatch g table) (cppVisible g) entry input n) r := by
  unfold runCppLL
  rw [ll_reads wf hg hw hv hn label]
  refine ⟨_, rfl, ?_⟩
  have he : enumConst (llUnitOf (llSourceOf tokens g table)).enums.tokens "TK_EOF".toList = some 1 := by
    show enumConst (cppTokenVariants tokens).zipIdx "TK_EOF".toList = some 1
    rfl
  beta_reduce
  rw [he]
  have := ll_run (llFns_ok (T := T) wf hk hv hn hT) entry input (fun i a e => (hk.mem a).mpr (hin i a e)) n
  revert this
  show LLMatch _ _ _ _ (runLLParse llParseStmts (llUnitOf (llSourceOf tokens g table)).fns (some 1) entry (codeInput input) n) →
    LLSame _ _ _ _ _ (runLLParse llParseStmts (llUnitOf (llSourceOf tokens g table)).fns (some 1) entry (codeInput input) n)
  generalize llParse (cppDispatch g table) (cppVisible g) entry input n = a
  generalize runLLParse llParseStmts (llUnitOf (llSourceOf tokens g table)).fns (some 1) entry (codeInput input) n = b
  intro this
  cases this with
  | ok events pos => exact .ok events pos
  | error events pos m h => exact .error events pos m h
  | fuel => exact .fuel

/-! ## The visitor -/

/-- the functions for the productions -/
def llMethods (named : List (List Char × List Char)) : List (List Char) := named.flatMap fun x => ["enter_".toList ++ x.2, "exit_".toList ++ x.2]

theorem llMethod_lexes {w : List Char} (hw : IsWord w) (hne : w ≠ []) : Lexes ("virtual void ".toList ++ (w ++ "() = 0;\n".toList)) (methodToks w) :=
  Lexes.wordIn (x := [.word "virtual".toList, .word "void".toList]) (by unfold Lexes; decide +kernel) hne hw (c := '(') (by decide) (by unfold Lexes; decide +kernel)

theorem llMethods_lexes (named : List (List Char × List Char)) (h : ∀ x ∈ named, IsWord x.2) : Lexes (llMethodsText named) ((llMethods named).flatMap methodToks) := by
  induction named with
  | nil => exact Lexes.nil
  | cons x named ih =>
    have h1 : IsWord ("enter_".toList ++ x.2) := isWord_append (by unfold IsWord; decide) (h x (by simp))
    have h2 : IsWord ("exit_".toList ++ x.2) := isWord_append (by unfold IsWord; decide) (h x (by simp))
    have e : (llMethods (x :: named)).flatMap methodToks = (methodToks ("enter_".toList ++ x.2) ++ methodToks ("exit_".toList ++ x.2)) ++ (llMethods named).flatMap methodToks := by
      unfold llMethods
      rw [List.flatMap_cons, List.flatMap_append]
      rfl
    rw [e]
    unfold llMethodsText
    rw [List.flatMap_cons]
    exact ((llMethod_lexes h1 (by simp)).append (llMethod_lexes h2 (by simp))).append (ih fun y hy => h y (by simp [hy]))

def llVisHA : List Char := tplBefore llVisitorHeaderTemplate.text
def llVisHB : List Char := tplAfter llVisitorHeaderTemplate.text

theorem llVisitor_file (src : CppLLSource) : cppLLVisitorFile src = (llVisHA ++ (llMethodsText src.named ++ llVisHB), .ok) :=
  template_one _ _ _ (by decide +kernel) (by decide +kernel) (by decide +kernel) (by decide +kernel)

theorem llVisHA_lexes : Lexes llVisHA (tplToks llVisHA) := by unfold Lexes; decide +kernel
theorem llVisHB_lexes : Lexes llVisHB [.sym ['}'], .sym [';'], .sym ['}']] := by unfold Lexes; decide +kernel

/-- `token(lexer::TokenType tk_type, T data)` -/
def tokenMethod : CppMethod := ⟨"token".toList, phrase "lexer::TokenType tk_type, T data"⟩

theorem llVisHA_after : afterPhrase (phrase "template <class T> class Visitor { public:") (tplToks llVisHA) = some (phrase "virtual void token(lexer::TokenType tk_type, T data) = 0;") := by decide +kernel

theorem llVisitor_reads (src : CppLLSource) (h : ∀ x ∈ src.named, IsWord x.2) :
    readVisitor (cppLLVisitorFile src).1 = some (tokenMethod :: (llMethods src.named).map fun x => ⟨x, []⟩) := by
  rw [llVisitor_file]
  have h2 := llMethods_lexes src.named h
  unfold readVisitor
  rw [cLex_of (llVisHA_lexes.append (h2.append llVisHB_lexes))]
  simp only [Option.bind_eq_bind, Option.bind_some]
  rw [afterPhrase_append _ llVisHA_after]
  simp only [Option.bind_some]
  have h3 : ∀ n, (llMethods src.named).length ≤ n → readMethods (n + 1) (phrase "virtual void token(lexer::TokenType tk_type, T data) = 0;" ++
      ((llMethods src.named).flatMap methodToks ++ [.sym ['}'], .sym [';'], .sym ['}']])) = some (tokenMethod :: (llMethods src.named).map fun x => ⟨x, []⟩) := by
    intro n hn
    have := readMethods_names (llMethods src.named) n hn [.sym ['}']]
    have hp : phrase "virtual void token(lexer::TokenType tk_type, T data) = 0;" = .word "virtual".toList :: .word "void".toList :: .word "token".toList :: .sym ['('] ::
      .word "lexer".toList :: .sym [':', ':'] :: .word "TokenType".toList :: .word "tk_type".toList :: .sym [','] :: .word ['T'] :: .word "data".toList :: .sym [')'] :: .sym ['='] ::
        .word ['0'] :: [.sym [';']] := by decide +kernel
    have hs : tokenMethod = ⟨"token".toList, [.word "lexer".toList, .sym [':', ':'], .word "TokenType".toList, .word "tk_type".toList, .sym [','], .word ['T'], .word "data".toList]⟩ := by decide +kernel
    rw [hp, hs]
    simp only [List.cons_append, List.nil_append]
    rw [readMethods, if_pos ⟨rfl, rfl⟩]
    show (readMethods n ((llMethods src.named).flatMap methodToks ++ .sym ['}'] :: .sym [';'] :: [.sym ['}']])).bind _ = _
    rw [this]
    rfl
  have hp : (phrase "virtual void token(lexer::TokenType tk_type, T data) = 0;").length = 15 := by decide +kernel
  obtain ⟨m, hm⟩ : ∃ m, (llMethods src.named).length ≤ m ∧ (phrase "virtual void token(lexer::TokenType tk_type, T data) = 0;" ++
      ((llMethods src.named).flatMap methodToks ++ [CTok.sym ['}'], CTok.sym [';'], CTok.sym ['}']])).length = m + 1 := by
    refine ⟨17 + 8 * (llMethods src.named).length, by omega, ?_⟩
    simp only [List.length_append, methodToks_length, hp, List.length_cons, List.length_nil]
    omega
  rw [hm.2, h3 m hm.1]

theorem called_llVisit (pre : List Char) (named : List (List Char × List Char)) : (CStmt.simplesL (llVisitStmts pre named)).flatMap calledOn = named.map fun x => pre ++ x.2 := by
  have k2 : calledOn (phrase "break") = [] := by decide +kernel
  induction named with
  | nil => rfl
  | cons c named ih =>
    simp only [llVisitStmts, CStmt.simplesL, CStmt.simples, List.flatMap_append, List.append_nil, List.map_cons, List.flatMap_cons, simplesL_append] at ih ⊢
    rw [ih]
    simp [CStmt.simplesL, CStmt.simples, llVisitBody, ntCase, k2, calledOn]

theorem called_llParse : (CStmt.simplesL llParseStmts).flatMap calledOn = ["token".toList] := by decide +kernel

end Verif
