import Verif.Proofs.CppLRRead

/-! # The text of the C++ LR parser: what its statements do -/

set_option autoImplicit false

namespace Verif

/-! ## `switch` -/

theorem cppSwitch_find {α : Type} (x : Nat) (l : List (Nat × α)) : cppSwitch x l = (l.find? (fun c => c.1 = x)).map (·.2) := by
  induction l with
  | nil => rfl
  | cons c l ih =>
    obtain ⟨k, a⟩ := c
    by_cases h : k = x
    · simp [cppSwitch, h]
    · simp [cppSwitch, h, ih]

theorem cppSwitch_zipIdx {α : Type} (x : Nat) (l : List α) : cppSwitch x (l.zipIdx.map fun x => (x.2, x.1)) = l[x]? := by
  rw [cppSwitch_find, List.find?_map]
  have := find_zipIdx l x
  simp only [Function.comp_def]
  rw [this]
  cases l[x]? <;> rfl

theorem nodup_zipIdx {α : Type} (l : List α) : ((l.zipIdx.map fun x => (x.2, x.1)).map (fun c => id c.1)).Nodup := by
  rw [List.map_map]
  simp only [Function.comp_def, id_eq]
  rw [List.zipIdx_map_snd]
  exact List.nodup_range'

theorem CMachine.exec_case_switch {σ ρ κ α : Type} (m : CMachine σ ρ) (n : Nat) (lab : κ → CStmt) (val : κ → Nat) (f : Nat → Nat) (hf : ∀ a b, f a = f b → a = b) (e : List CTok)
    (cases : List (κ × α)) (body : α → List CStmt) (d : List CStmt) (s : σ) (x : Nat) (hv : m.value e s = some (f x)) (hnd : (cases.map (fun c => val c.1)).Nodup)
    (hlab : ∀ k, lab k ≠ .dflt) (happ : ∀ c ∈ cases, ∀ v, m.applies v (lab c.1) = some (decide (f (val c.1) = v)))
    (hplain : ∀ c ∈ cases, ∀ a ∈ body c.2, a.plain = true) (hd : ∀ a ∈ d, a.plain = true) (hb : ∀ c ∈ cases, ∀ s', m.execs n 0 (body c.2) s ≠ .ok (.next s')) :
    m.exec n (.switch e (swBody (cases.map fun c => (lab c.1, body c.2)) d)) s =
      afterSwitch (match cppSwitch x (cases.map fun c => (val c.1, c.2)) with
        | some a => m.execs n 0 (body a) s
        | none => m.execs n 0 d s) := by
  have h := m.exec_switch_find n lab (fun k => f (val k)) e (cases.map fun c => (c.1, body c.2)) d s (f x) hv ?_ hlab ?_ ?_ hd ?_
  · rw [List.map_map] at h
    rw [show (fun c : κ × α => (lab c.1, body c.2)) = (fun c => (lab c.1, c.2)) ∘ fun c => (c.1, body c.2) from rfl, h, cppSwitch_find, List.find?_map, List.find?_map]
    have e1 : ((fun c : κ × List CStmt => decide (f (val c.1) = f x)) ∘ fun c : κ × α => (c.1, body c.2)) = fun c => decide (val c.1 = x) := by
      funext c
      simp only [Function.comp_def, decide_eq_decide]
      exact ⟨hf _ _, fun h => by rw [h]⟩
    have e2 : ((fun c : Nat × α => decide (c.1 = x)) ∘ fun c : κ × α => (val c.1, c.2)) = fun c => decide (val c.1 = x) := rfl
    rw [e1, e2]
    cases cases.find? (fun c => decide (val c.1 = x)) <;> rfl
  · rw [List.map_map]
    have := hnd.map (f := f) hf
    rw [List.map_map] at this
    exact this
  · intro c hc
    obtain ⟨c', hc', rfl⟩ := List.mem_map.mp hc
    exact happ c' hc' _
  · intro c hc
    obtain ⟨c', hc', rfl⟩ := List.mem_map.mp hc
    exact hplain c' hc'
  · intro c hc _
    obtain ⟨c', hc', rfl⟩ := List.mem_map.mp hc
    exact hb c' hc'

/-! ## Constants -/

theorem enumConst_eq (variants : List (List Char)) (w : List Char) : enumConst variants.zipIdx w = enumValue variants w := by
  unfold enumConst enumValue
  suffices h : ∀ k, ((variants.zipIdx k).find? (fun e => decide (e.1 = w))).map (·.2) = (variants.findIdx? (fun v => decide (v = w))).map (· + k) by
    have := h 0
    simpa using this
  induction variants with
  | nil => simp
  | cons v variants ih =>
    intro k
    rw [List.zipIdx_cons, List.find?_cons, List.findIdx?_cons]
    by_cases hv : v = w
    · simp [hv]
    · simp only [hv, decide_false]
      rw [ih (k + 1)]
      cases List.findIdx? (fun v => decide (v = w)) variants with
      | none => simp
      | some i => simp; omega

/-- the value of an enumerator -/
def enumVal (variants : List (List Char)) (w : List Char) : Nat := (enumValue variants w).getD 0

theorem option_mapM_getElem {α β : Type} {f : α → Option β} {l : List α} {r : List β} (h : l.mapM f = some r) (i : Nat) :
    (l[i]? = none ∧ r[i]? = none) ∨ ∃ a b, l[i]? = some a ∧ f a = some b ∧ r[i]? = some b := by
  induction l generalizing r i with
  | nil => simp at h; subst h; simp
  | cons a l ih =>
    rw [List.mapM_cons] at h
    cases ha : f a with
    | none => simp [ha] at h
    | some b =>
      cases hl : l.mapM f with
      | none => simp [ha, hl] at h
      | some r' =>
        simp [ha, hl] at h
        subst h
        cases i with
        | zero => exact .inr ⟨a, b, rfl, ha, rfl⟩
        | succ i => simpa using ih hl i

theorem compileCases_vals {α : Type} {variants : List (List Char)} {cases : List (List Char × α)} {cs : List (Nat × α)} (h : compileCases variants cases = some cs) :
    (∀ c ∈ cases, enumValue variants c.1 = some (enumVal variants c.1)) ∧ cs = cases.map (fun c => (enumVal variants c.1, c.2)) ∧ (cases.map (·.1)).Nodup := by
  unfold compileCases at h
  split at h
  · rename_i hnd
    refine ⟨?_, ?_, hnd⟩
    · intro c hc
      obtain ⟨i, hi, rfl⟩ := List.getElem_of_mem hc
      have hy : ∃ y, (enumValue variants cases[i].1).map (fun v => (v, cases[i].2)) = some y := by
        rcases option_mapM_getElem h i with ⟨h, -⟩ | ⟨a, b, h1, h2, -⟩
        · rw [List.getElem?_eq_none_iff] at h; omega
        · rw [List.getElem?_eq_getElem hi] at h1
          simp only [Option.some.injEq] at h1
          subst h1
          exact ⟨b, h2⟩
      obtain ⟨y, hy⟩ := hy
      unfold enumVal
      cases he : enumValue variants cases[i].1 with
      | none => rw [he] at hy; simp at hy
      | some v => rfl
    · clear hnd
      induction cases generalizing cs with
      | nil => simpa using h.symm
      | cons c cases ih =>
        rw [List.mapM_cons] at h
        cases he : enumValue variants c.1 with
        | none => simp [he] at h
        | some v =>
          cases hr : cases.mapM (fun c => (enumValue variants c.1).map (fun v => (v, c.2))) with
          | none => simp [he, hr] at h
          | some r =>
            simp [he, hr] at h
            rw [← h, List.map_cons, ← ih hr]
            simp [enumVal, he]
  · simp at h

theorem enumValue_inj {variants : List (List Char)} {a b : List Char} {v : Nat} (ha : enumValue variants a = some v) (hb : enumValue variants b = some v) : a = b := by
  unfold enumValue at ha hb
  obtain ⟨h1, h2, -⟩ := List.findIdx?_eq_some_iff_getElem.mp ha
  obtain ⟨h3, h4, -⟩ := List.findIdx?_eq_some_iff_getElem.mp hb
  simp only [decide_eq_true_eq] at h2 h4
  rw [← h2, ← h4]

theorem enumVal_nodup {α : Type} {variants : List (List Char)} {cases : List (List Char × α)} (h1 : ∀ c ∈ cases, enumValue variants c.1 = some (enumVal variants c.1))
    (h2 : (cases.map (·.1)).Nodup) : (cases.map (fun c => enumVal variants c.1)).Nodup := by
  rw [show (cases.map (fun c => enumVal variants c.1)) = (cases.map (·.1)).map (enumVal variants) by rw [List.map_map]; rfl]
  refine List.Nodup.map_on ?_ h2
  intro a ha b hb e
  obtain ⟨c, hc, rfl⟩ := List.mem_map.mp ha
  obtain ⟨c', hc', rfl⟩ := List.mem_map.mp hb
  have h3 := h1 c hc
  rw [e] at h3
  exact enumValue_inj h3 (h1 c' hc')

theorem doPhrase_of {σ ρ : Type} {table : List (String × (σ → Option (COut σ ρ)))} {names : List String} {ts : List CTok} {k : Nat} (hn : table.map (·.1) = names)
    (hk : names.findIdx? (fun q => decide (phrase q = ts)) = some k) {x : String × (σ → Option (COut σ ρ))} (hx : table[k]? = some x) (s : σ) : doPhrase table ts s = x.2 s := by
  unfold doPhrase
  subst hn
  rw [List.findIdx?_map] at hk
  obtain ⟨h1, h2, h3⟩ := List.findIdx?_eq_some_iff_getElem.mp hk
  obtain ⟨h4, rfl⟩ := List.getElem?_eq_some_iff.mp hx
  have : table.find? (fun x => decide (phrase x.1 = ts)) = some table[k] := by
    rw [List.find?_eq_some_iff_getElem]
    refine ⟨h2, k, h1, rfl, ?_⟩
    intro j hj
    have := h3 j hj
    simpa using this
  rw [this]

/-- the enumerations that the generated headers declare -/
def srcEnums (src : CppLRSource) : Enums := ⟨(cppTokenVariants src.tokens).zipIdx, src.nonTerminals.zipIdx⟩

theorem lrConst_num (e : Enums) (k : Nat) : lrConst e [.word (decimal k)] = some (3 * k) := by
  simp [lrConst, decimalConst_decimal]

theorem lrConst_tk (src : CppLRSource) (w : List Char) :
    lrConst (srcEnums src) [.word "lexer".toList, .sym [':', ':'], .word "TokenType".toList, .sym [':', ':'], .word w] = (enumValue (cppTokenVariants src.tokens) w).map (fun v => 3 * v + 1) := by
  simp only [lrConst, and_self, if_true]
  rw [← enumConst_eq]; rfl

theorem lrConst_nt (src : CppLRSource) (w : List Char) :
    lrConst (srcEnums src) [.word "NonTerminalType".toList, .sym [':', ':'], .word w] = (enumValue src.nonTerminals w).map (fun v => 3 * v + 2) := by
  simp only [lrConst, if_true]
  rw [← enumConst_eq]; rfl

theorem applies_lr {σ ρ : Type} (m : CMachine σ ρ) (l : List CTok) (k v : Nat) (h : m.const l = some k) : m.applies v (.label l) = some (decide (k = v)) := by
  simp [CMachine.applies, h]

theorem three_inj (a b : Nat) (h : 3 * a = 3 * b) : a = b := by omega
theorem three_inj1 (a b : Nat) (h : 3 * a + 1 = 3 * b + 1) : a = b := by omega
theorem three_inj2 (a b : Nat) (h : 3 * a + 2 = 3 * b + 2) : a = b := by omega

/-! ## `determine_action` -/

section Action

variable (e : Enums) (n : Nat) (s : ActionVars)

theorem phrase_act : phrase "return act" = [.word "return".toList, .word "act".toList] := by decide +kernel
theorem phrase_terminate : phrase "std::terminate()" = [.word "std".toList, .sym [':', ':'], .word "terminate".toList, .sym ['('], .sym [')']] := by decide +kernel
theorem phrase_break : phrase "break" = [.word "break".toList] := by decide +kernel
theorem phrase_return : phrase "return" = [.word "return".toList] := by decide +kernel

theorem action_act (a : LRAction) (ha : actionFits a = true) : (actionMachine e).exec n (.simple (actToks a)) s = .ok (.next { s with act := some a }) := by
  cases a with
  | shift => simp [CMachine.exec, actionMachine, actionAct, actToks, decimalConst_decimal]
  | reduce i =>
    have hi : ¬ 65536 ≤ i := by simpa [actionFits] using ha
    simp [CMachine.exec, actionMachine, actionAct, actToks, decimalConst_decimal, hi]

theorem action_throw (x : List Char) : (actionMachine e).exec n (.simple (throwToks x)) s = .ok (.exit s (.throw x)) := by
  simp [CMachine.exec, actionMachine, actionAct, throwToks]

theorem action_phrase {ts : List CTok} {o : COut ActionVars CppAct} (h : doPhrase actionTable ts s = some o) (h' : actionAct ts s = doPhrase actionTable ts s) :
    (actionMachine e).exec n (.simple ts) s = .ok o := by
  simp only [CMachine.exec, actionMachine, h', h]

theorem action_return (a : LRAction) (h : s.act = some a) : (actionMachine e).exec n (.simple (phrase "return act")) s = .ok (.exit s (.act a)) := by
  refine action_phrase e n s ?_ (by rw [phrase_act]; rfl)
  rw [doPhrase_of (k := 0) (names := ["return act", "std::terminate()", "break"]) rfl (by decide +kernel) rfl]
  simp [h]

theorem action_terminate : (actionMachine e).exec n (.simple (phrase "std::terminate()")) s = .ok (.exit s .abort) := by
  refine action_phrase e n s ?_ (by rw [phrase_terminate]; rfl)
  rw [doPhrase_of (k := 1) (names := ["return act", "std::terminate()", "break"]) rfl (by decide +kernel) rfl]

theorem action_break : (actionMachine e).exec n (.simple (phrase "break")) s = .ok (.brk s) := by
  refine action_phrase e n s ?_ (by rw [phrase_break]; rfl)
  rw [doPhrase_of (k := 2) (names := ["return act", "std::terminate()", "break"]) rfl (by decide +kernel) rfl]

theorem action_body (a : LRAction) (ha : actionFits a = true) : (actionMachine e).execs n 0 (actBody a) s = .ok (.exit { s with act := some a } (.act a)) := by
  unfold actBody
  rw [CMachine.execs_cons, show ∀ ss s, (actionMachine e).exec n (.block ss) s = (actionMachine e).execs n 0 ss s from fun _ _ => by rw [CMachine.exec], CMachine.execs_cons, action_act e n s a ha]
  simp only
  rw [CMachine.execs_cons, action_return e n _ a rfl]

theorem action_value_state : (actionMachine e).value (phrase "state") s = some (3 * s.state) := by
  rw [show (actionMachine e).value = actionValue from rfl]
  unfold actionValue
  rw [if_pos rfl]

theorem action_value_tk : (actionMachine e).value (phrase "lookahead_token") s = some (3 * s.tk + 1) := by
  rw [show (actionMachine e).value = actionValue from rfl]
  unfold actionValue
  rw [if_neg (by decide +kernel), if_pos rfl]

end Action

theorem action_state (src : CppLRSource) (n : Nat) (s : ActionVars) (a : List (List Char × LRAction) × List Char) (cs : List (Nat × LRAction)) (hfit : a.1.all (fun c => actionFits c.2) = true)
    (hc : compileCases (cppTokenVariants src.tokens) a.1 = some cs) : ∃ s', (actionMachine (srcEnums src)).execs n 0 (actStateBody a) s =
      .ok (.exit s' (match cppSwitch s.tk cs with | some x => .act x | none => .throw a.2)) := by
  obtain ⟨h1, h2, h3⟩ := compileCases_vals hc
  unfold actStateBody
  rw [CMachine.execs_cons, show ∀ ss s, (actionMachine (srcEnums src)).exec n (.block ss) s = (actionMachine (srcEnums src)).execs n 0 ss s from fun _ _ => by rw [CMachine.exec], CMachine.execs_cons]
  have fit : ∀ c ∈ a.1, actionFits c.2 = true := fun c hc => List.all_eq_true.mp hfit c hc
  rw [(actionMachine (srcEnums src)).exec_case_switch n tkCase (enumVal (cppTokenVariants src.tokens)) (fun v => 3 * v + 1) three_inj1 _ a.1 actBody _ s s.tk (action_value_tk _ s)
    (enumVal_nodup h1 h3) (by simp [tkCase]) ?_ ?_ ?_ ?_, ← h2]
  · cases hs : cppSwitch s.tk cs with
    | none =>
      simp only
      rw [CMachine.execs_cons, action_throw]
      exact ⟨_, rfl⟩
    | some x =>
      simp only
      have : actionFits x = true := by
        rw [cppSwitch_find] at hs
        cases hf : cs.find? (fun c => decide (c.1 = s.tk)) with
        | none => rw [hf] at hs; simp at hs
        | some y =>
          rw [hf] at hs
          have hy := List.mem_of_find?_eq_some hf
          rw [h2] at hy
          obtain ⟨c, hc, rfl⟩ := List.mem_map.mp hy
          simp at hs; subst hs
          exact fit c hc
      rw [action_body _ n s x this]
      exact ⟨_, rfl⟩
  · intro c hc v
    exact applies_lr _ _ _ _ (by rw [show (actionMachine (srcEnums src)).const = lrConst (srcEnums src) from rfl, lrConst_tk, h1 c hc]; rfl)
  · intro c _ x hx
    simp [actBody] at hx; subst hx; rfl
  · intro x hx
    simp at hx; subst hx; rfl
  · intro c hc s'
    rw [action_body _ n s c.2 (fit c hc)]
    simp

theorem cppSwitch_mapM {α β : Type} {f : Nat × α → Option (Nat × β)} (hf : ∀ a b, f a = some b → b.1 = a.1) {l : List (Nat × α)} {r : List (Nat × β)} (h : l.mapM f = some r) (x : Nat) :
    (cppSwitch x l = none ∧ cppSwitch x r = none) ∨ ∃ a b, cppSwitch x l = some a ∧ f (x, a) = some (x, b) ∧ cppSwitch x r = some b := by
  induction l generalizing r with
  | nil => simp at h; subst h; simp [cppSwitch]
  | cons a l ih =>
    rw [List.mapM_cons] at h
    cases ha : f a with
    | none => simp [ha] at h
    | some b =>
      cases hl : l.mapM f with
      | none => simp [ha, hl] at h
      | some r' =>
        simp [ha, hl] at h
        subst h
        obtain ⟨k, a⟩ := a
        obtain ⟨k', b⟩ := b
        have := hf _ _ ha
        simp only at this
        subst this
        by_cases hx : k' = x
        · subst hx
          exact .inr ⟨a, b, by simp [cppSwitch], ha, by simp [cppSwitch]⟩
        · simpa [cppSwitch, hx] using ih hl

/-- what `compile` says about the tables -/
structure Compiled (src : CppLRSource) (p : CppLRProg) : Prop where
  tokens : p.tokens = src.tokens
  entry : p.entry = src.entry
  nodup : (cppTokenVariants src.tokens).Nodup ∧ src.nonTerminals.Nodup
  actions : ∀ i : Nat, (src.actions[i]? = none ∧ p.actions[i]? = none) ∨
    ∃ (a : List (List Char × LRAction) × List Char) (cs : List (Nat × LRAction)), src.actions[i]? = some a ∧ p.actions[i]? = some (cs, a.2) ∧ a.1.all (fun c => actionFits c.2) = true ∧ compileCases (cppTokenVariants src.tokens) a.1 = some cs
  gotos : ∀ q, (cppSwitch q src.gotos = none ∧ cppSwitch q p.gotos = none) ∨
    ∃ (a : List (List Char × LRGoto) × List (List Char × LRGoto)) (ts ns : List (Nat × LRGoto)), cppSwitch q src.gotos = some a ∧ cppSwitch q p.gotos = some (ts, ns) ∧ a.1.all (fun c => gotoFits c.2) = true ∧ a.2.all (fun c => gotoFits c.2) = true ∧
      compileCases (cppTokenVariants src.tokens) a.1 = some ts ∧ compileCases src.nonTerminals a.2 = some ns
  reductions : ∀ i : Nat, (src.reductions[i]? = none ∧ p.reductions[i]? = none) ∨ ∃ (r : Nat × List Char) (v : Nat), src.reductions[i]? = some r ∧ p.reductions[i]? = some (r.1, v) ∧ enumValue src.nonTerminals r.2 = some v

theorem compiled {src : CppLRSource} {p : CppLRProg} (h : src.compile = some p) : Compiled src p := by
  unfold CppLRSource.compile at h
  split at h
  · rename_i hn
    simp only [Option.bind_eq_bind, Option.bind_eq_some_iff] at h
    obtain ⟨as, ha, gs, hg, rs, hr, h⟩ := h
    simp only [Option.some.injEq] at h
    subst h
    refine ⟨rfl, rfl, hn, ?_, ?_, ?_⟩
    · intro i
      rcases option_mapM_getElem ha i with h | ⟨a, b, h1, h2, h3⟩
      · exact .inl h
      · refine .inr ?_
        split at h2
        · rename_i hf
          simp only [Option.bind_eq_some_iff, Option.some.injEq] at h2
          obtain ⟨cs, h4, rfl⟩ := h2
          exact ⟨a, cs, h1, h3, hf, h4⟩
        · simp at h2
    · intro q
      refine (cppSwitch_mapM ?_ hg q).imp id ?_
      · intro a b hab
        split at hab
        · simp only [Option.bind_eq_some_iff, Option.some.injEq] at hab
          obtain ⟨_, _, _, _, rfl⟩ := hab
          rfl
        · simp at hab
      · rintro ⟨a, b, h1, h2, h3⟩
        split at h2
        · rename_i hf
          simp only [Bool.and_eq_true] at hf
          simp only [Option.bind_eq_some_iff, Option.some.injEq, Prod.mk.injEq] at h2
          obtain ⟨ts, h4, ns, h5, -, rfl⟩ := h2
          exact ⟨a, ts, ns, h1, h3, hf.1, hf.2, h4, h5⟩
        · simp at h2
    · intro i
      rcases option_mapM_getElem hr i with h | ⟨a, b, h1, h2, h3⟩
      · exact .inl h
      · refine .inr ?_
        simp only [Option.map_eq_some_iff] at h2
        obtain ⟨v, h4, rfl⟩ := h2
        exact ⟨a, v, h1, h3, h4⟩
  · simp at h

theorem callC_exit {σ ρ : Type} {m : CMachine σ ρ} {body : List CStmt} {s s' : σ} {r : ρ} (h : m.execs 0 0 body s = .ok (.exit s' r)) : callC m body s = .ok (s', r) := by
  simp [callC, h]

theorem action_call {src : CppLRSource} {p : CppLRProg} (hp : Compiled src p) (q tk : Nat) :
    (callC (actionMachine (srcEnums src)) (actStmts src.actions) ⟨q, tk, none⟩).map (·.2) = .ok (p.determineAction q tk) := by
  have key : ∃ s', (actionMachine (srcEnums src)).execs 0 0 (actStmts src.actions) ⟨q, tk, none⟩ = .ok (.exit s' (p.determineAction q tk)) := by
    unfold actStmts
    have bodies : ∀ c ∈ src.actions.zipIdx.map (fun x => (x.2, x.1)), ∀ s s', (actionMachine (srcEnums src)).execs 0 0 (actStateBody c.2) s ≠ .ok (.next s') := by
      intro c hc s s'
      obtain ⟨x, hx, rfl⟩ := List.mem_map.mp hc
      obtain ⟨i, hi, hxi⟩ := List.getElem_of_mem (List.fst_mem_of_mem_zipIdx hx)
      rcases hp.actions i with ⟨h, -⟩ | ⟨a, cs, h1, h2, h3, h4⟩
      · rw [List.getElem?_eq_none_iff] at h; omega
      · rw [List.getElem?_eq_getElem hi, hxi] at h1
        simp only [Option.some.injEq] at h1
        subst h1
        obtain ⟨s'', h5⟩ := action_state src 0 s x.1 cs h3 h4
        simp only
        rw [h5]; simp
    rw [CMachine.execs_cons, (actionMachine (srcEnums src)).exec_case_switch 0 numLabel id (fun v => 3 * v) three_inj _ (src.actions.zipIdx.map fun x => (x.2, x.1)) actStateBody _ _ q
      (action_value_state _ _) (nodup_zipIdx _) (by simp [numLabel]) ?_ ?_ ?_ (fun c hc => bodies c hc _)]
    · rw [show (src.actions.zipIdx.map fun x => (x.2, x.1)).map (fun c => (id c.1, c.2)) = src.actions.zipIdx.map fun x => (x.2, x.1) by simp, cppSwitch_zipIdx]
      unfold CppLRProg.determineAction
      rcases hp.actions q with ⟨h, h'⟩ | ⟨a, cs, h1, h2, h3, h4⟩
      · rw [h, h']
        simp only
        rw [CMachine.execs_cons, action_terminate]
        exact ⟨_, rfl⟩
      · rw [h1, h2]
        simp only
        obtain ⟨s'', h5⟩ := action_state src 0 ⟨q, tk, none⟩ a cs h3 h4
        rw [h5]
        refine ⟨s'', ?_⟩
        simp only [afterSwitch]
        rfl
    · intro c _ v
      exact applies_lr _ _ _ _ (lrConst_num (srcEnums src) _)
    · intro c _ x hx
      simp [actStateBody] at hx
      rcases hx with rfl | rfl <;> rfl
    · intro x hx
      simp at hx; subst hx; rfl
  obtain ⟨s', h⟩ := key
  rw [callC_exit h]
  rfl

/-! ## `retrieve_next_state` -/

section Goto

variable (e : Enums) (n : Nat) (s : GotoVars)

theorem phrase_transition : phrase "return transition" = [.word "return".toList, .word "transition".toList] := by decide +kernel

theorem goto_act (a : LRGoto) (ha : gotoFits a = true) : (gotoMachine e).exec n (.simple (gotoToks a)) s = .ok (.next { s with transition := some a }) := by
  cases a with
  | accept => simp [CMachine.exec, gotoMachine, gotoAct, gotoToks, decimalConst_decimal]
  | state i =>
    have hi : ¬ 4294967296 ≤ i := by simpa [gotoFits] using ha
    simp [CMachine.exec, gotoMachine, gotoAct, gotoToks, decimalConst_decimal, hi]

theorem goto_phrase {ts : List CTok} {o : COut GotoVars (Option LRGoto)} (h : doPhrase gotoTable ts s = some o) (h' : gotoAct ts s = doPhrase gotoTable ts s) :
    (gotoMachine e).exec n (.simple ts) s = .ok o := by
  simp only [CMachine.exec, gotoMachine, h', h]

theorem goto_return (a : LRGoto) (h : s.transition = some a) : (gotoMachine e).exec n (.simple (phrase "return transition")) s = .ok (.exit s (some a)) := by
  refine goto_phrase e n s ?_ (by rw [phrase_transition]; rfl)
  rw [doPhrase_of (k := 0) (names := ["return transition", "std::terminate()", "break"]) rfl (by decide +kernel) rfl]
  simp [h]

theorem goto_terminate : (gotoMachine e).exec n (.simple (phrase "std::terminate()")) s = .ok (.exit s none) := by
  refine goto_phrase e n s ?_ (by rw [phrase_terminate]; rfl)
  rw [doPhrase_of (k := 1) (names := ["return transition", "std::terminate()", "break"]) rfl (by decide +kernel) rfl]

theorem goto_body (a : LRGoto) (ha : gotoFits a = true) : (gotoMachine e).execs n 0 (gotoBody a) s = .ok (.exit { s with transition := some a } (some a)) := by
  unfold gotoBody
  rw [CMachine.execs_cons, show ∀ ss s, (gotoMachine e).exec n (.block ss) s = (gotoMachine e).execs n 0 ss s from fun _ _ => by rw [CMachine.exec], CMachine.execs_cons, goto_act e n s a ha]
  simp only
  rw [CMachine.execs_cons, goto_return e n _ a rfl]

theorem goto_value_state : (gotoMachine e).value (phrase "state") s = some (3 * s.state) := by
  rw [show (gotoMachine e).value = gotoValue from rfl]
  unfold gotoValue
  rw [if_pos rfl]

theorem goto_value_tk : (gotoMachine e).value (phrase "static_cast<lexer::TokenType>(current_symbol.identifier)") s = some (3 * s.sym.id + 1) := by
  rw [show (gotoMachine e).value = gotoValue from rfl]
  unfold gotoValue
  rw [if_neg (by decide +kernel), if_pos rfl]

theorem goto_value_nt : (gotoMachine e).value (phrase "static_cast<parser::NonTerminalType>(current_symbol.identifier)") s = some (3 * s.sym.id + 2) := by
  rw [show (gotoMachine e).value = gotoValue from rfl]
  unfold gotoValue
  rw [if_neg (by decide +kernel), if_neg (by decide +kernel), if_pos rfl]

theorem goto_test_tk : (gotoMachine e).test (phrase "current_symbol.kind == SymbolKind::Terminal") s = some (decide (s.sym.kind = .terminal)) := by
  rw [show (gotoMachine e).test = gotoTest from rfl]
  unfold gotoTest
  rw [if_pos rfl]

theorem goto_test_nt : (gotoMachine e).test (phrase "current_symbol.kind == SymbolKind::NonTerminal") s = some (decide (s.sym.kind = .nonTerminal)) := by
  rw [show (gotoMachine e).test = gotoTest from rfl]
  unfold gotoTest
  rw [if_neg (by decide +kernel), if_pos rfl]

end Goto

theorem mem_of_cppSwitch {α : Type} {x : Nat} {l : List (Nat × α)} {a : α} (h : cppSwitch x l = some a) : (x, a) ∈ l := by
  rw [cppSwitch_find] at h
  simp only [Option.map_eq_some_iff] at h
  obtain ⟨c, h1, rfl⟩ := h
  have h2 := List.find?_some h1
  simp only [decide_eq_true_eq] at h2
  subst h2
  exact List.mem_of_find?_eq_some h1

/-- one of the inner `switch` statements -/
theorem goto_switch (src : CppLRSource) (n : Nat) (s : GotoVars) (lab : List Char → CStmt) (variants : List (List Char)) (f : Nat → Nat) (hf : ∀ a b, f a = f b → a = b) (e : List CTok)
    (cases : List (List Char × LRGoto)) (cs : List (Nat × LRGoto)) (hfit : cases.all (fun c => gotoFits c.2) = true) (hc : compileCases variants cases = some cs)
    (hv : (gotoMachine (srcEnums src)).value e s = some (f s.sym.id)) (hlab : ∀ k, lab k ≠ .dflt)
    (happ : ∀ w k, enumValue variants w = some k → ∀ v, (gotoMachine (srcEnums src)).applies v (lab w) = some (decide (f k = v))) :
    ∃ s', (gotoMachine (srcEnums src)).exec n (.switch e (swBody (cases.map fun c => (lab c.1, gotoBody c.2)) [.simple (phrase "std::terminate()")])) s =
      .ok (.exit s' (cppSwitch s.sym.id cs)) := by
  obtain ⟨h1, h2, h3⟩ := compileCases_vals hc
  have fit : ∀ c ∈ cases, gotoFits c.2 = true := fun c hc => List.all_eq_true.mp hfit c hc
  rw [(gotoMachine (srcEnums src)).exec_case_switch n lab (enumVal variants) f hf e cases gotoBody _ s s.sym.id hv
    (enumVal_nodup h1 h3) hlab (fun c hc v => happ _ _ (h1 c hc) v) ?_ ?_ ?_, ← h2]
  · cases hs : cppSwitch s.sym.id cs with
    | none =>
      simp only
      rw [CMachine.execs_cons, goto_terminate]
      exact ⟨_, rfl⟩
    | some x =>
      simp only
      have : gotoFits x = true := by
        have hy := mem_of_cppSwitch hs
        rw [h2] at hy
        obtain ⟨c, hc, he⟩ := List.mem_map.mp hy
        simp only [Prod.mk.injEq] at he
        rw [← he.2]
        exact fit c hc
      rw [goto_body _ n s x this]
      exact ⟨_, rfl⟩
  · intro c _ x hx
    simp [gotoBody] at hx; subst hx; rfl
  · intro x hx
    simp at hx; subst hx; rfl
  · intro c hc s'
    rw [goto_body _ n s c.2 (fit c hc)]
    simp

theorem goto_state (src : CppLRSource) (n : Nat) (s : GotoVars) (a : List (List Char × LRGoto) × List (List Char × LRGoto)) (ts ns : List (Nat × LRGoto))
    (h1 : a.1.all (fun c => gotoFits c.2) = true) (h2 : a.2.all (fun c => gotoFits c.2) = true) (h3 : compileCases (cppTokenVariants src.tokens) a.1 = some ts)
    (h4 : compileCases src.nonTerminals a.2 = some ns) : ∃ s', (gotoMachine (srcEnums src)).execs n 0 (gotoStateBody a) s =
      .ok (.exit s' (match s.sym.kind with | .terminal => cppSwitch s.sym.id ts | .nonTerminal => cppSwitch s.sym.id ns | .state => none)) := by
  have block : ∀ ss s, (gotoMachine (srcEnums src)).exec n (.block ss) s = (gotoMachine (srcEnums src)).execs n 0 ss s := fun _ _ => by rw [CMachine.exec]
  have cond : ∀ c x y s, (gotoMachine (srcEnums src)).exec n (.cond c x y) s = match (gotoMachine (srcEnums src)).test c s with
    | none => .error .panic
    | some true => (gotoMachine (srcEnums src)).exec n x s
    | some false => (gotoMachine (srcEnums src)).exec n y s := fun _ _ _ _ => by rw [CMachine.exec]; rfl
  obtain ⟨s1, e1⟩ := goto_switch src n s tkCase (cppTokenVariants src.tokens) (fun v => 3 * v + 1) three_inj1 _ a.1 ts h1 h3 (goto_value_tk _ s) (by simp [tkCase])
    (fun w k hk v => applies_lr _ _ _ _ (by rw [show (gotoMachine (srcEnums src)).const = lrConst (srcEnums src) from rfl, lrConst_tk, hk]; rfl))
  obtain ⟨s2, e2⟩ := goto_switch src n s ntCase src.nonTerminals (fun v => 3 * v + 2) three_inj2 _ a.2 ns h2 h4 (goto_value_nt _ s) (by simp [ntCase])
    (fun w k hk v => applies_lr _ _ _ _ (by rw [show (gotoMachine (srcEnums src)).const = lrConst (srcEnums src) from rfl, lrConst_nt, hk]; rfl))
  unfold gotoStateBody
  rw [CMachine.execs_cons, block, CMachine.execs_cons, cond, goto_test_tk]
  cases hk : s.sym.kind with
  | terminal =>
    simp only [decide_true]
    rw [block, CMachine.execs_cons, e1]
    exact ⟨s1, rfl⟩
  | nonTerminal =>
    simp only [reduceCtorEq, decide_false]
    rw [cond, goto_test_nt, hk]
    simp only [decide_true]
    rw [block, CMachine.execs_cons, e2]
    exact ⟨s2, rfl⟩
  | state =>
    simp only [reduceCtorEq, decide_false]
    rw [cond, goto_test_nt, hk]
    simp only [reduceCtorEq, decide_false]
    rw [block, CMachine.execs_cons, goto_terminate]
    exact ⟨s, rfl⟩

theorem goto_call {src : CppLRSource} {p : CppLRProg} (hp : Compiled src p) (hnd : (src.gotos.map (·.1)).Nodup) (q : Nat) (x : CppSym) :
    (callC (gotoMachine (srcEnums src)) (gotoStmts src.gotos) ⟨q, x, none⟩).map (·.2) = .ok (p.nextState q x) := by
  have key : ∃ s', (gotoMachine (srcEnums src)).execs 0 0 (gotoStmts src.gotos) ⟨q, x, none⟩ = .ok (.exit s' (p.nextState q x)) := by
    unfold gotoStmts
    have bodies : ∀ c ∈ src.gotos, ∀ s s', (gotoMachine (srcEnums src)).execs 0 0 (gotoStateBody c.2) s ≠ .ok (.next s') := by
      intro c hc s s'
      have hsw : cppSwitch c.1 src.gotos = some c.2 := by
        rw [cppSwitch_find]
        have : src.gotos.find? (fun d => decide (d.1 = c.1)) = some c := by
          obtain ⟨y, hy⟩ : ∃ y, src.gotos.find? (fun d => decide (d.1 = c.1)) = some y := by
            rw [← Option.isSome_iff_exists, List.find?_isSome]
            exact ⟨c, hc, by simp⟩
          have h1 := List.mem_of_find?_eq_some hy
          have h2 := List.find?_some hy
          simp only [decide_eq_true_eq] at h2
          rw [hy, (List.inj_on_of_nodup_map hnd) h1 hc h2]
        rw [this]; rfl
      rcases hp.gotos c.1 with ⟨h, -⟩ | ⟨a, ts, ns, h1, h2, h3, h4, h5, h6⟩
      · rw [hsw] at h; simp at h
      · rw [hsw] at h1
        simp only [Option.some.injEq] at h1
        subst h1
        obtain ⟨s'', h7⟩ := goto_state src 0 s c.2 ts ns h3 h4 h5 h6
        rw [h7]; simp
    rw [CMachine.execs_cons, (gotoMachine (srcEnums src)).exec_case_switch 0 numLabel id (fun v => 3 * v) three_inj _ src.gotos gotoStateBody _ _ q
      (goto_value_state _ _) (by simpa using hnd) (by simp [numLabel]) ?_ ?_ ?_ (fun c hc => bodies c hc _)]
    · rw [show src.gotos.map (fun c => (id c.1, c.2)) = src.gotos by simp]
      unfold CppLRProg.nextState
      rcases hp.gotos q with ⟨h, h'⟩ | ⟨a, ts, ns, h1, h2, h3, h4, h5, h6⟩
      · rw [h, h']
        simp only
        rw [CMachine.execs_cons, goto_terminate]
        exact ⟨_, rfl⟩
      · rw [h1, h2]
        simp only
        obtain ⟨s'', h7⟩ := goto_state src 0 ⟨q, x, none⟩ a ts ns h3 h4 h5 h6
        rw [h7]
        refine ⟨s'', ?_⟩
        simp only [afterSwitch]
        rfl
    · intro c _ v
      exact applies_lr _ _ _ _ (lrConst_num (srcEnums src) _)
    · intro c _ x hx
      simp [gotoStateBody] at hx
      rcases hx with rfl | rfl <;> rfl
    · intro x hx
      simp at hx; subst hx; rfl
  obtain ⟨s', h⟩ := key
  rw [callC_exit h]
  rfl

/-! ## `reduce_stack` -/

section Reduce

variable (e : Enums) (n : Nat) (s : ReduceVars)

theorem phrase_pop : phrase "parse_stack.pop_back()" = [.word "parse_stack".toList, .sym ['.'], .word "pop_back".toList, .sym ['('], .sym [')']] := by decide +kernel
theorem phrase_back : phrase "Symbol reduced_symbol = parse_stack.back()" =
    [.word "Symbol".toList, .word "reduced_symbol".toList, .sym ['='], .word "parse_stack".toList, .sym ['.'], .word "back".toList, .sym ['('], .sym [')']] := by decide +kernel
theorem phrase_pushSym : phrase "rev_reduced_symbols.push_back(reduced_symbol)" =
    [.word "rev_reduced_symbols".toList, .sym ['.'], .word "push_back".toList, .sym ['('], .word "reduced_symbol".toList, .sym [')']] := by decide +kernel
theorem phrase_pushNt : phrase "parse_stack.push_back(reduced_non_terminal)" =
    [.word "parse_stack".toList, .sym ['.'], .word "push_back".toList, .sym ['('], .word "reduced_non_terminal".toList, .sym [')']] := by decide +kernel

/-- the result of a simple statement -/
def actRes {σ ρ : Type} : Option (COut σ ρ) → Res (COut σ ρ)
  | some o => .ok o
  | none => .error .panic

theorem exec_simple {σ ρ : Type} (m : CMachine σ ρ) (n : Nat) (ts : List CTok) (s : σ) : m.exec n (.simple ts) s = actRes (m.act ts s) := by
  simp only [CMachine.exec, actRes]
  rfl

theorem reduce_phrase {ts : List CTok} {o : Option (COut ReduceVars Bool)} (h : doPhrase reduceTable ts s = o) (h' : reduceAct e ts s = doPhrase reduceTable ts s) :
    (reduceMachine e).exec n (.simple ts) s = actRes o := by
  rw [exec_simple, ← h, ← h']
  rfl

def reduceNames : List String := ["parse_stack.pop_back()", "Symbol reduced_symbol = parse_stack.back()", "rev_reduced_symbols.push_back(reduced_symbol)",
  "parse_stack.push_back(reduced_non_terminal)", "return", "std::terminate()"]

theorem reduce_pop : (reduceMachine e).exec n (.simple (phrase "parse_stack.pop_back()")) s = actRes (s.stack.tail?.map fun r => .next { s with stack := r }) := by
  refine reduce_phrase e n s ?_ (by rw [phrase_pop]; rfl)
  rw [doPhrase_of (k := 0) (names := reduceNames) rfl (by decide +kernel) rfl]

theorem reduce_back : (reduceMachine e).exec n (.simple (phrase "Symbol reduced_symbol = parse_stack.back()")) s = actRes (s.stack.head?.map fun x => .next { s with symbol := some x }) := by
  refine reduce_phrase e n s ?_ (by rw [phrase_back]; rfl)
  rw [doPhrase_of (k := 1) (names := reduceNames) rfl (by decide +kernel) rfl]

theorem reduce_pushSym : (reduceMachine e).exec n (.simple (phrase "rev_reduced_symbols.push_back(reduced_symbol)")) s =
    actRes (s.symbol.map fun x => .next { s with reduced := x :: s.reduced }) := by
  refine reduce_phrase e n s ?_ (by rw [phrase_pushSym]; rfl)
  rw [doPhrase_of (k := 2) (names := reduceNames) rfl (by decide +kernel) rfl]

theorem reduce_pushNt : (reduceMachine e).exec n (.simple (phrase "parse_stack.push_back(reduced_non_terminal)")) s =
    actRes (s.nonTerminal.map fun x => .next { s with stack := x :: s.stack }) := by
  refine reduce_phrase e n s ?_ (by rw [phrase_pushNt]; rfl)
  rw [doPhrase_of (k := 3) (names := reduceNames) rfl (by decide +kernel) rfl]

theorem reduce_return : (reduceMachine e).exec n (.simple (phrase "return")) s = .ok (.exit s true) := by
  refine reduce_phrase (o := some _) e n s ?_ (by rw [phrase_return]; rfl)
  rw [doPhrase_of (k := 4) (names := reduceNames) rfl (by decide +kernel) rfl]

theorem reduce_terminate : (reduceMachine e).exec n (.simple (phrase "std::terminate()")) s = .ok (.exit s false) := by
  refine reduce_phrase (o := some _) e n s ?_ (by rw [phrase_terminate]; rfl)
  rw [doPhrase_of (k := 5) (names := reduceNames) rfl (by decide +kernel) rfl]

theorem reduce_nt (w : List Char) (v : Nat) (h : enumConst e.nonTerminals w = some v) : (reduceMachine e).exec n (.simple (ntToks w)) s =
    .ok (.next { s with nonTerminal := some ⟨.nonTerminal, v⟩ }) := by
  simp [CMachine.exec, reduceMachine, reduceAct, ntToks, h]

theorem countOf_eq (k : Nat) : countOf (countToks k) = some k := by
  rw [countToks_eq]
  unfold countOf
  rw [show ∀ t, toSym [';'] ([.word "size_t".toList, .word ['i'], .sym ['='], .word ['0'], .sym [';'], .word ['i'], .sym ['<'], t, .sym [';'], .word ['i'], .sym ['+'], .sym ['+']]) =
    some ([.word "size_t".toList, .word ['i'], .sym ['='], .word ['0']], [.word ['i'], .sym ['<'], t, .sym [';'], .word ['i'], .sym ['+'], .sym ['+']]) from fun t => by simp [toSym]]
  simp only
  rw [if_pos (by decide +kernel), if_pos (by decide +kernel), decimalConst_decimal]

/-- one round of the loop -/
theorem reduce_round : (reduceMachine e).execs n 0 popStmts s = match s.stack with
    | _ :: x :: rest => .ok (.next { s with stack := rest, symbol := some x, reduced := x :: s.reduced })
    | _ => .error .panic := by
  unfold popStmts
  rw [CMachine.execs_cons, reduce_pop]
  match hs : s.stack with
  | [] => rfl
  | [a] =>
    simp only [List.tail?_cons, Option.map_some, actRes]
    rw [CMachine.execs_cons, reduce_back]
    rfl
  | a :: x :: rest =>
    simp only [List.tail?_cons, Option.map_some, actRes]
    rw [CMachine.execs_cons, reduce_back]
    simp only [List.head?_cons, Option.map_some, actRes]
    rw [CMachine.execs_cons, reduce_pushSym]
    simp only [Option.map_some, actRes]
    rw [CMachine.execs_cons, reduce_pop]
    simp only [List.tail?_cons, Option.map_some, actRes]
    rw [CMachine.execs_nil]

theorem reduce_loop (k : Nat) : ∃ x r, repeatLoop (fun s => (reduceMachine e).execs n 0 popStmts s) k s =
    if s.stack.length < 2 * k then .error .panic else .ok (.next { s with stack := s.stack.drop (2 * k), symbol := x, reduced := r }) := by
  induction k generalizing s with
  | zero => exact ⟨s.symbol, s.reduced, by simp [repeatLoop]⟩
  | succ k ih =>
    unfold repeatLoop
    rw [reduce_round]
    match hs : s.stack with
    | [] => exact ⟨none, [], by simp⟩
    | [a] => exact ⟨none, [], by simp; omega⟩
    | a :: y :: rest =>
      simp only
      obtain ⟨x, r, h⟩ := ih { s with stack := rest, symbol := some y, reduced := y :: s.reduced }
      refine ⟨x, r, ?_⟩
      rw [h]
      simp only [List.length_cons, show 2 * (k + 1) = 2 * k + 1 + 1 by omega, List.drop_succ_cons]
      by_cases hl : rest.length < 2 * k
      · rw [if_pos hl, if_pos (by omega)]
      · rw [if_neg hl, if_neg (by omega)]

theorem reduce_body (x : Nat × List Char) (v : Nat) (h : enumConst e.nonTerminals x.2 = some v) : ∃ s', (reduceMachine e).execs n 0 (reduceBody x) s =
    (if s.stack.length < 2 * x.1 then .error .panic else .ok (.exit s' true)) ∧ s'.stack = ⟨.nonTerminal, v⟩ :: s.stack.drop (2 * x.1) := by
  have block : ∀ ss s, (reduceMachine e).exec n (.block ss) s = (reduceMachine e).execs n 0 ss s := fun _ _ => by rw [CMachine.exec]
  have tail : ∀ s : ReduceVars, (reduceMachine e).execs n 0 [.simple (ntToks x.2), .simple (phrase "parse_stack.push_back(reduced_non_terminal)"), .simple (phrase "return")] s =
      .ok (.exit { s with nonTerminal := some ⟨.nonTerminal, v⟩, stack := ⟨.nonTerminal, v⟩ :: s.stack } true) := by
    intro s
    rw [CMachine.execs_cons, reduce_nt e n s x.2 v h]
    simp only
    rw [CMachine.execs_cons, reduce_pushNt]
    simp only [Option.map_some, actRes]
    rw [CMachine.execs_cons, reduce_return]
  unfold reduceBody
  rw [CMachine.execs_cons, block]
  by_cases hk : 0 < x.1
  · rw [if_pos hk, List.singleton_append, CMachine.execs_cons]
    have cnt : ∀ c a s, (reduceMachine e).exec n (.count c a) s = match countOf c with
      | none => .error .panic
      | some k => repeatLoop (fun s => (reduceMachine e).exec n a s) k s := fun _ _ _ => by rw [CMachine.exec]; rfl
    rw [cnt, countOf_eq]
    simp only
    rw [show (fun s => (reduceMachine e).exec n (.block popStmts) s) = fun s => (reduceMachine e).execs n 0 popStmts s from funext fun s => block _ _]
    obtain ⟨y, r, hl⟩ := reduce_loop e n s x.1
    rw [hl]
    refine ⟨{ s with stack := ⟨.nonTerminal, v⟩ :: s.stack.drop (2 * x.1), symbol := y, reduced := r, nonTerminal := some ⟨.nonTerminal, v⟩ }, ?_, rfl⟩
    by_cases hlen : s.stack.length < 2 * x.1
    · rw [if_pos hlen, if_pos hlen]
    · rw [if_neg hlen, if_neg hlen]
      simp only
      rw [tail]
  · have h0 : x.1 = 0 := by omega
    rw [if_neg hk, List.nil_append, tail, h0]
    exact ⟨_, rfl, rfl⟩

theorem reduce_value : (reduceMachine e).value (phrase "rule") s = some (3 * s.rule) := by
  simp only [reduceMachine, if_true]

end Reduce

theorem reduce_call {src : CppLRSource} {p : CppLRProg} (hp : Compiled src p) (i : Nat) (stack reduced : List CppSym) :
    ∃ r, (callC (reduceMachine (srcEnums src)) (reduceStmts src.reductions) ⟨i, stack, reduced, none, none⟩).map (fun r => (r.1.stack, r.1.reduced, r.2)) =
      match p.reductions[i]? with
      | none => .ok (stack, reduced, false)
      | some (k, v) => if stack.length < 2 * k then .error .panic else .ok (⟨.nonTerminal, v⟩ :: stack.drop (2 * k), r, true) := by
  have val : ∀ c ∈ src.reductions.zipIdx.map (fun x => (x.2, x.1)), ∃ v, enumConst (srcEnums src).nonTerminals c.2.2 = some v := by
    intro c hc
    obtain ⟨x, hx, rfl⟩ := List.mem_map.mp hc
    obtain ⟨j, hj, hxj⟩ := List.getElem_of_mem (List.fst_mem_of_mem_zipIdx hx)
    rcases hp.reductions j with ⟨h, -⟩ | ⟨r, v, h1, h2, h3⟩
    · rw [List.getElem?_eq_none_iff] at h; omega
    · rw [List.getElem?_eq_getElem hj, hxj] at h1
      simp only [Option.some.injEq] at h1
      subst h1
      exact ⟨v, by rw [show (srcEnums src).nonTerminals = src.nonTerminals.zipIdx from rfl, enumConst_eq]; exact h3⟩
  have sw := (reduceMachine (srcEnums src)).exec_case_switch 0 numLabel id (fun v => 3 * v) three_inj _ (src.reductions.zipIdx.map fun x => (x.2, x.1)) reduceBody
      [.simple (phrase "std::terminate()")] ⟨i, stack, reduced, none, none⟩ i
      (reduce_value _ _) (nodup_zipIdx _) (by simp [numLabel]) (fun c _ v => applies_lr (reduceMachine (srcEnums src)) _ _ _ (lrConst_num (srcEnums src) _)) ?_ ?_ ?_
  · rw [show (src.reductions.zipIdx.map fun x => (x.2, x.1)).map (fun c => (id c.1, c.2)) = src.reductions.zipIdx.map fun x => (x.2, x.1) by simp, cppSwitch_zipIdx] at sw
    unfold callC reduceStmts
    rw [CMachine.execs_cons, sw]
    rcases hp.reductions i with ⟨h, h'⟩ | ⟨r, v, h1, h2, h3⟩
    · rw [h, h']
      simp only
      rw [CMachine.execs_cons, reduce_terminate]
      exact ⟨[], rfl⟩
    · rw [h1, h2]
      simp only
      obtain ⟨s', e1, e2⟩ := reduce_body (srcEnums src) 0 ⟨i, stack, reduced, none, none⟩ r v (by rw [show (srcEnums src).nonTerminals = src.nonTerminals.zipIdx from rfl, enumConst_eq]; exact h3)
      rw [e1]
      refine ⟨s'.reduced, ?_⟩
      by_cases hl : stack.length < 2 * r.1
      · simp only [hl, if_true]
        rfl
      · simp only [hl, if_false, afterSwitch]
        simp only at e2
        rw [← e2]
        rfl
  · intro c _ x hx
    simp [reduceBody] at hx; subst hx; rfl
  · intro x hx
    simp at hx; subst hx; rfl
  · intro c hc s'
    obtain ⟨v, hv⟩ := val c hc
    obtain ⟨s'', e1, -⟩ := reduce_body (srcEnums src) 0 ⟨i, stack, reduced, none, none⟩ c.2 v hv
    rw [e1]
    split <;> simp

/-! ## `reduce_visitor` -/

theorem visit_phrase (n : Nat) (s : VisitVars) {ts : List CTok} {o : COut VisitVars Bool} (h : doPhrase visitTable ts s = some o) (h' : visitAct ts s = doPhrase visitTable ts s) :
    visitMachine.exec n (.simple ts) s = .ok o := by
  simp only [CMachine.exec, visitMachine, h', h]

theorem visit_return (n : Nat) (s : VisitVars) : visitMachine.exec n (.simple (phrase "return")) s = .ok (.exit s true) := by
  refine visit_phrase n s ?_ (by rw [phrase_return]; rfl)
  rw [doPhrase_of (k := 0) (names := ["return", "std::terminate()"]) rfl (by decide +kernel) rfl]

theorem visit_terminate (n : Nat) (s : VisitVars) : visitMachine.exec n (.simple (phrase "std::terminate()")) s = .ok (.exit s false) := by
  refine visit_phrase n s ?_ (by rw [phrase_terminate]; rfl)
  rw [doPhrase_of (k := 1) (names := ["return", "std::terminate()"]) rfl (by decide +kernel) rfl]

theorem visit_body (n : Nat) (s : VisitVars) (x : List Char) : visitMachine.execs n 0 (visitBody x) s = .ok (.exit { s with called := s.called ++ [x] } true) := by
  unfold visitBody
  rw [CMachine.execs_cons, show ∀ ss s, visitMachine.exec n (.block ss) s = visitMachine.execs n 0 ss s from fun _ _ => by rw [CMachine.exec], CMachine.execs_cons,
    show visitMachine.exec n (.simple [.word "visitor".toList, .sym ['.'], .word x, .sym ['('], .sym [')']]) s = .ok (.next { s with called := s.called ++ [x] }) by
      simp [CMachine.exec, visitMachine, visitAct]]
  simp only
  rw [CMachine.execs_cons, visit_return]

theorem visit_call (calls : List (Nat × List Char)) (hnd : (calls.map (·.1)).Nodup) (i : Nat) :
    (callC visitMachine (visitStmts calls) ⟨i, []⟩).map (fun r => (r.1.called, r.2)) = .ok (match cppSwitch i calls with | some x => ([x], true) | none => ([], false)) := by
  have sw := visitMachine.exec_case_switch 0 numLabel id (fun v => v) (fun _ _ h => h) (phrase "rule") calls visitBody
      [.simple (phrase "std::terminate()")] ⟨i, []⟩ i (by simp only [visitMachine, if_true]) (by simpa using hnd) (by simp [numLabel])
      (fun c _ v => applies_lr _ _ _ _ (by rw [show visitMachine.const = decimalConst from rfl, decimalConst_decimal]; rfl)) ?_ ?_ ?_
  · rw [show calls.map (fun c => (id c.1, c.2)) = calls by simp] at sw
    unfold callC visitStmts
    rw [CMachine.execs_cons, sw]
    cases cppSwitch i calls with
    | none =>
      simp only
      rw [CMachine.execs_cons, visit_terminate]
      rfl
    | some x =>
      simp only
      rw [visit_body]
      rfl
  · intro c _ x hx
    simp [visitBody] at hx; subst hx; rfl
  · intro x hx
    simp at hx; subst hx; rfl
  · intro c _ s'
    rw [visit_body]; simp

/-! ## The message -/

theorem name_return (tokens : List (List Char × Nat)) (n tk : Nat) (x : List Char) : (tokenNameMachine tokens).execs n 0 (nameBody x) tk = .ok (.exit tk (some x)) := by
  unfold nameBody
  rw [CMachine.execs_cons, show (tokenNameMachine tokens).exec n (.simple [.word "return".toList, .str x]) tk = .ok (.exit tk (some x)) by
    simp [CMachine.exec, tokenNameMachine, tokenNameAct]]

theorem nameCases_fst (names : List (List Char)) : (nameCases names).map (·.1) = cppTokenVariants names := by
  unfold nameCases cppTokenVariants
  simp [Function.comp_def]

theorem name_call (names : List (List Char)) (hnd : (cppTokenVariants names).Nodup) (tk : Nat) :
    callC (tokenNameMachine (cppTokenVariants names).zipIdx) (nameStmts names) tk = .ok (tk, (["<ERR>".toList, "<EOF>".toList] ++ names)[tk]?) := by
  have hidx : ∀ i (hi : i < (cppTokenVariants names).length), enumValue (cppTokenVariants names) (cppTokenVariants names)[i] = some i := by
    intro i hi
    unfold enumValue
    rw [List.findIdx?_eq_some_iff_getElem]
    refine ⟨hi, by simp, ?_⟩
    intro j hj
    simp only [decide_eq_true_eq]
    intro h
    have := (List.Nodup.getElem_inj_iff hnd).mp h
    omega
  have hlen : (nameCases names).length = (cppTokenVariants names).length := by rw [← nameCases_fst, List.length_map]
  have hat : ∀ i (hi : i < (nameCases names).length), (nameCases names)[i].1 = (cppTokenVariants names)[i]'(by omega) := by
    intro i hi
    simp only [← nameCases_fst, List.getElem_map]
  have h1 : ∀ c ∈ nameCases names, enumValue (cppTokenVariants names) c.1 = some (enumVal (cppTokenVariants names) c.1) := by
    intro c hc
    obtain ⟨i, hi, rfl⟩ := List.getElem_of_mem hc
    unfold enumVal
    rw [hat i hi, hidx i (by omega)]
    rfl
  have h2 : (nameCases names).map (fun c => (enumVal (cppTokenVariants names) c.1, c.2)) = ((nameCases names).map (·.2)).zipIdx.map fun x => (x.2, x.1) := by
    refine List.ext_getElem (by simp) ?_
    intro i h _
    simp only [List.length_map] at h
    simp only [List.getElem_map, List.getElem_zipIdx, Prod.mk.injEq, and_true]
    unfold enumVal
    rw [hat i h, hidx i (by omega)]
    simp
  have h3 : ((nameCases names).map (·.1)).Nodup := by rw [nameCases_fst]; exact hnd
  have sw := (tokenNameMachine (cppTokenVariants names).zipIdx).exec_case_switch 0 nameLabel (enumVal (cppTokenVariants names)) (fun v => v) (fun _ _ h => h) (phrase "tk_type") (nameCases names) nameBody
      [.simple (phrase "return nullptr")] tk tk (by simp only [tokenNameMachine, if_true]) (enumVal_nodup h1 h3) (by simp [nameLabel]) ?_ ?_ ?_ ?_
  · rw [h2, cppSwitch_zipIdx, show (nameCases names).map (·.2) = ["<ERR>".toList, "<EOF>".toList] ++ names by simp [nameCases, Function.comp_def]] at sw
    unfold callC nameStmts
    rw [CMachine.execs_cons, sw]
    cases (["<ERR>".toList, "<EOF>".toList] ++ names)[tk]? with
    | none =>
      simp only
      rw [CMachine.execs_cons, show (tokenNameMachine (cppTokenVariants names).zipIdx).exec 0 (.simple (phrase "return nullptr")) tk = .ok (.exit tk none) by
        rw [exec_simple, show (tokenNameMachine (cppTokenVariants names).zipIdx).act = tokenNameAct from rfl,
          show phrase "return nullptr" = [.word "return".toList, .word "nullptr".toList] by decide +kernel,
          show tokenNameAct [.word "return".toList, .word "nullptr".toList] tk = doPhrase [("return nullptr", fun tk => some (.exit tk none))] [.word "return".toList, .word "nullptr".toList] tk from rfl,
          doPhrase_of (k := 0) (names := ["return nullptr"]) rfl (by decide +kernel) rfl]
        rfl]
      rfl
    | some x =>
      simp only
      rw [name_return]
      rfl
  · intro c hc v
    refine applies_lr _ _ _ _ ?_
    rw [show (tokenNameMachine (cppTokenVariants names).zipIdx).const = tokenConst (cppTokenVariants names).zipIdx from rfl]
    simp only [tokenConst, if_true]
    rw [enumConst_eq]
    exact h1 c hc
  · intro c _ x hx
    simp [nameBody] at hx; subst hx; rfl
  · intro x hx
    simp at hx; subst hx; rfl
  · intro c _ s'
    rw [name_return]; simp

/-- the statements of `throw_unexpected_token_error` -/
def throwStmts : List CStmt := [.simple (phrase "std::ostringstream os"),
  .simple (phrase "os << \"Unexpected token '\" << lexer::get_token_name(got) << \"', expected one of: \" << expected"), .simple (phrase "throw std::runtime_error(os.str())")]

theorem streamText_nil (name expected : List Char) (n : Nat) : streamText name expected n [] = some [] := by
  cases n <;> rfl

theorem streamText_str (name expected : List Char) (n : Nat) (x : List Char) (ts : List CTok) : streamText name expected (n + 1) (.sym ['<'] :: .sym ['<'] :: .str x :: ts) =
    (streamText name expected n ts).map (x ++ ·) := rfl

theorem streamText_word (name expected : List Char) (n : Nat) (x : List Char) (ts : List CTok) : streamText name expected (n + 1) (.sym ['<'] :: .sym ['<'] :: .word x :: ts) =
    if phrase "lexer::get_token_name(got)" <+: .word x :: ts then (streamText name expected n ((CTok.word x :: ts).drop (phrase "lexer::get_token_name(got)").length)).map (name ++ ·)
    else if phrase "expected" <+: .word x :: ts then (streamText name expected n ((CTok.word x :: ts).drop (phrase "expected").length)).map (expected ++ ·)
    else none := rfl

theorem throw_call (name expected : List Char) : callC (throwMachine name expected) throwStmts [] =
    .ok ("Unexpected token '".toList ++ name ++ "', expected one of: ".toList ++ expected, "Unexpected token '".toList ++ name ++ "', expected one of: ".toList ++ expected) := by
  have h1 : (throwMachine name expected).exec 0 (.simple (phrase "std::ostringstream os")) [] = .ok (.next []) := by
    rw [exec_simple, show (throwMachine name expected).act = throwAct name expected from rfl,
      show phrase "std::ostringstream os" = [.word "std".toList, .sym [':', ':'], .word "ostringstream".toList, .word "os".toList] by decide +kernel,
      show throwAct name expected [.word "std".toList, .sym [':', ':'], .word "ostringstream".toList, .word "os".toList] [] =
        doPhrase throwTable [.word "std".toList, .sym [':', ':'], .word "ostringstream".toList, .word "os".toList] [] from rfl,
      doPhrase_of (k := 0) (names := ["std::ostringstream os", "throw std::runtime_error(os.str())"]) rfl (by decide +kernel) rfl]
    rfl
  have h3 : ∀ os, (throwMachine name expected).exec 0 (.simple (phrase "throw std::runtime_error(os.str())")) os = .ok (.exit os os) := by
    intro os
    rw [exec_simple, show (throwMachine name expected).act = throwAct name expected from rfl,
      show phrase "throw std::runtime_error(os.str())" = [.word "throw".toList, .word "std".toList, .sym [':', ':'], .word "runtime_error".toList, .sym ['('], .word "os".toList, .sym ['.'],
        .word "str".toList, .sym ['('], .sym [')'], .sym [')']] by decide +kernel,
      show throwAct name expected [.word "throw".toList, .word "std".toList, .sym [':', ':'], .word "runtime_error".toList, .sym ['('], .word "os".toList, .sym ['.'],
        .word "str".toList, .sym ['('], .sym [')'], .sym [')']] os =
        doPhrase throwTable [.word "throw".toList, .word "std".toList, .sym [':', ':'], .word "runtime_error".toList, .sym ['('], .word "os".toList, .sym ['.'],
        .word "str".toList, .sym ['('], .sym [')'], .sym [')']] os from rfl,
      doPhrase_of (k := 1) (names := ["std::ostringstream os", "throw std::runtime_error(os.str())"]) rfl (by decide +kernel) rfl]
    rfl
  have h2 : (throwMachine name expected).exec 0 (.simple (phrase "os << \"Unexpected token '\" << lexer::get_token_name(got) << \"', expected one of: \" << expected")) [] =
      .ok (.next ("Unexpected token '".toList ++ name ++ "', expected one of: ".toList ++ expected)) := by
    rw [exec_simple, show (throwMachine name expected).act = throwAct name expected from rfl,
      show phrase "os << \"Unexpected token '\" << lexer::get_token_name(got) << \"', expected one of: \" << expected" = [.word "os".toList, .sym ['<'], .sym ['<'], .str "Unexpected token '".toList,
        .sym ['<'], .sym ['<'], .word "lexer".toList, .sym [':', ':'], .word "get_token_name".toList, .sym ['('], .word "got".toList, .sym [')'], .sym ['<'], .sym ['<'],
        .str "', expected one of: ".toList, .sym ['<'], .sym ['<'], .word "expected".toList] by decide +kernel]
    unfold throwAct
    simp only [if_true, List.length_cons, List.length_nil]
    rw [streamText_str, streamText_word, if_pos (by decide +kernel), show (phrase "lexer::get_token_name(got)").length = 6 by decide +kernel]
    simp only [List.drop_succ_cons, List.drop_zero]
    rw [streamText_str, streamText_word, if_neg (by decide +kernel), if_pos (by decide +kernel), show (phrase "expected").length = 1 by decide +kernel]
    simp only [List.drop_succ_cons, List.drop_zero]
    rw [streamText_nil]
    simp [actRes]
  unfold callC throwStmts
  rw [CMachine.execs_cons, h1]
  simp only
  rw [CMachine.execs_cons, h2]
  simp only
  rw [CMachine.execs_cons, h3]

end Verif
