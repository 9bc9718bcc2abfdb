import Verif.Proofs.CppLLRead

/-! # The text of the C++ LL parser: what its statements do -/

set_option autoImplicit false

namespace Verif

/-! ## `switch` without `default` -/

theorem dfltAt_last {ss : List CStmt} (h : CStmt.dflt ∉ ss) : ∀ k, dfltAt k (ss ++ [.dflt]) = some (k + ss.length) ∧ dfltAt k ss = none := by
  induction ss with
  | nil => intro k; exact ⟨rfl, rfl⟩
  | cons a ss ih =>
    intro k
    simp only [List.mem_cons, not_or] at h
    obtain ⟨h1, h2⟩ := ih h.2 (k + 1)
    cases a with
    | dflt => exact absurd rfl h.1
    | _ =>
      refine ⟨?_, ?_⟩
      · show dfltAt (k + 1) (ss ++ [.dflt]) = _
        rw [h1, List.length_cons]
        congr 1
        omega
      · exact h2

theorem targets_append {σ ρ : Type} (m : CMachine σ ρ) (v : Nat) (ss : List CStmt) : ∀ k, m.targets v k (ss ++ [.dflt]) = m.targets v k ss := by
  induction ss with
  | nil => intro k; rfl
  | cons a ss ih =>
    intro k
    rw [List.cons_append, CMachine.targets, CMachine.targets, ih]

theorem targets_lt {σ ρ : Type} (m : CMachine σ ρ) (v : Nat) (ss : List CStmt) : ∀ k r, m.targets v k ss = some r → ∀ x ∈ r, x < k + ss.length := by
  induction ss with
  | nil => intro k r h x hx; simp [CMachine.targets] at h; subst h; simp at hx
  | cons a ss ih =>
    intro k r h x hx
    unfold CMachine.targets at h
    cases hb : m.applies v a with
    | none => rw [hb] at h; simp at h
    | some b =>
      rw [hb] at h
      simp only [Option.bind_eq_bind, Option.bind_some] at h
      cases hr : m.targets v (k + 1) ss with
      | none => rw [hr] at h; simp at h
      | some r' =>
        rw [hr] at h
        simp only [Option.bind_some, Option.some.injEq] at h
        have h1 := ih (k + 1) r' hr
        rw [List.length_cons]
        cases b with
        | true =>
          simp only [if_true] at h
          subst h
          rcases List.mem_cons.mp hx with rfl | hx
          · omega
          · have := h1 x hx; omega
        | false =>
          simp only [Bool.false_eq_true, if_false] at h
          subst h
          have := h1 x hx; omega

theorem execs_dflt {σ ρ : Type} (m : CMachine σ ρ) (n : Nat) (ss : List CStmt) (s : σ) : m.execs n 0 (ss ++ [.dflt]) s = m.execs n 0 ss s := by
  rw [CMachine.execs_append]
  cases m.execs n 0 ss s with
  | error e => rfl
  | ok r =>
    cases r with
    | next s' => simp [CMachine.execs, CMachine.exec]
    | brk s' => rfl
    | exit s' r => rfl

theorem execs_one {σ ρ : Type} (m : CMachine σ ρ) (n : Nat) (a : CStmt) (s : σ) : m.execs n 0 [a] s = m.exec n a s := by
  rw [CMachine.execs_cons]
  cases m.exec n a s with
  | error e => rfl
  | ok r =>
    cases r with
    | next s' => simp only [CMachine.execs_nil]
    | brk s' => rfl
    | exit s' r => rfl

theorem switch_dflt {σ ρ : Type} (m : CMachine σ ρ) (n : Nat) (e : List CTok) (ss : List CStmt) (s : σ) (h : CStmt.dflt ∉ ss) :
    m.exec n (.switch e ss) s = m.exec n (.switch e (ss ++ [.dflt])) s := by
  cases hv : m.value e s with
  | none => simp only [CMachine.exec, hv]
  | some v =>
    cases ht : m.targets v 0 ss with
    | none =>
      have h1 : m.jump v ss = none := by unfold CMachine.jump; rw [ht]
      have h2 : m.jump v (ss ++ [.dflt]) = none := by unfold CMachine.jump; rw [targets_append, ht]
      simp only [CMachine.exec, hv, h1, h2]
    | some r =>
      match r, ht with
      | [], ht =>
        have h1 : m.jump v ss = some ss.length := by unfold CMachine.jump; rw [ht, (dfltAt_last h 0).2]; rfl
        have h2 : m.jump v (ss ++ [.dflt]) = some ss.length := by unfold CMachine.jump; rw [targets_append, ht, (dfltAt_last h 0).1]; simp
        rw [m.exec_switch n e _ s v _ hv h1, m.exec_switch n e _ s v _ hv h2, List.drop_length, List.drop_left]
        simp [CMachine.execs, CMachine.exec]
      | [k], ht =>
        have hk := targets_lt m v ss 0 _ ht k (by simp)
        have h1 : m.jump v ss = some k := by unfold CMachine.jump; rw [ht]
        have h2 : m.jump v (ss ++ [.dflt]) = some k := by unfold CMachine.jump; rw [targets_append, ht]
        rw [m.exec_switch n e _ s v _ hv h1, m.exec_switch n e _ s v _ hv h2, List.drop_append_of_le_length (by omega), execs_dflt]
      | a :: b :: r, ht =>
        have h1 : m.jump v ss = none := by unfold CMachine.jump; rw [ht]
        have h2 : m.jump v (ss ++ [.dflt]) = none := by unfold CMachine.jump; rw [targets_append, ht]
        simp only [CMachine.exec, hv, h1, h2]

/-- a `switch` over distinct constants without `default` -/
theorem exec_plain_switch {σ ρ κ α : Type} (m : CMachine σ ρ) (n : Nat) (lab : κ → CStmt) (val : κ → Nat) (f : Nat → Nat) (hf : ∀ a b, f a = f b → a = b) (e : List CTok)
    (cases : List (κ × α)) (body : α → List CStmt) (s : σ) (x : Nat) (hv : m.value e s = some (f x)) (hnd : (cases.map (fun c => val c.1)).Nodup)
    (hlab : ∀ k, lab k ≠ .dflt) (happ : ∀ c ∈ cases, ∀ v, m.applies v (lab c.1) = some (decide (f (val c.1) = v)))
    (hplain : ∀ c ∈ cases, ∀ a ∈ body c.2, a.plain = true) (hb : ∀ c ∈ cases, ∀ s', m.execs n 0 (body c.2) s ≠ .ok (.next s')) :
    m.exec n (.switch e ((cases.map fun c => (lab c.1, body c.2)).flatMap fun c => c.1 :: c.2)) s =
      afterSwitch (match cppSwitch x (cases.map fun c => (val c.1, c.2)) with
        | some a => m.execs n 0 (body a) s
        | none => .ok (.next s)) := by
  rw [switch_dflt]
  · have := m.exec_case_switch n lab val f hf e cases body [] s x hv hnd hlab happ hplain (by simp) hb
    unfold swBody at this
    rw [this]
    cases cppSwitch x (cases.map fun c => (val c.1, c.2)) with
    | some a => rfl
    | none => simp only [CMachine.execs_nil]
  · intro h
    obtain ⟨c, hc, h⟩ := List.mem_flatMap.mp h
    obtain ⟨d, hd, rfl⟩ := List.mem_map.mp hc
    rcases List.mem_cons.mp h with h | h
    · exact hlab _ h.symm
    · exact absurd (hplain d hd _ h) (by simp [CStmt.plain])

/-! ## Constants -/

/-- the enumerations that the generated headers declare -/
def llEnums (src : CppLLSource) : Enums := ⟨(cppTokenVariants src.tokens).zipIdx, src.nonTerminals.zipIdx⟩

theorem llConst_tk (src : CppLLSource) (w : List Char) :
    lrConst (llEnums src) [.word "lexer".toList, .sym [':', ':'], .word "TokenType".toList, .sym [':', ':'], .word w] = (enumValue (cppTokenVariants src.tokens) w).map (fun v => 3 * v + 1) := by
  simp only [lrConst, and_self, if_true]
  rw [← enumConst_eq]; rfl

theorem llConst_nt (src : CppLLSource) (w : List Char) :
    lrConst (llEnums src) [.word "NonTerminalType".toList, .sym [':', ':'], .word w] = (enumValue src.nonTerminals w).map (fun v => 3 * v + 2) := by
  simp only [lrConst, if_true]
  rw [← enumConst_eq]; rfl

/-! ## `push_production_from_table` -/

/-- the symbol that is pushed -/
def pushedSym (src : CppLLSource) : LLPushed → Option LLCSym
  | .nt w => some ⟨.nonTerminal, enumVal src.nonTerminals w⟩
  | .tk w => some ⟨.terminal, enumVal (cppTokenVariants src.tokens) w⟩
  | .eps => none
  | .skip => none

/-- the label is declared -/
def PushedKnown (src : CppLLSource) : LLPushed → Prop
  | .nt w => enumValue src.nonTerminals w = some (enumVal src.nonTerminals w)
  | .tk w => enumValue (cppTokenVariants src.tokens) w = some (enumVal (cppTokenVariants src.tokens) w)
  | _ => True

section Push

variable (src : CppLLSource) (n : Nat) (s : PushVars)

theorem declare_new {v : List Char} (x : LLCSym) (h : v ∉ s.vars.map (·.1)) : s.declare v x = some (.next { s with vars := (v, x) :: s.vars }) := by
  unfold PushVars.declare
  rw [if_neg h]

theorem push_declNt (i : Nat) (w : List Char) (hw : PushedKnown src (.nt w)) (h : symWord i ∉ s.vars.map (·.1)) : (pushMachine (llEnums src)).exec n (.simple (declNtToks i w)) s =
    .ok (.next { s with vars := (symWord i, ⟨.nonTerminal, enumVal src.nonTerminals w⟩) :: s.vars }) := by
  rw [exec_simple, show (pushMachine (llEnums src)).act = pushAct (llEnums src) from rfl]
  unfold pushAct declNtToks
  simp only [and_self, if_true]
  rw [show (llEnums src).nonTerminals = src.nonTerminals.zipIdx from rfl, enumConst_eq, hw, Option.bind_some, declare_new s _ h]
  rfl

theorem push_declTk (i : Nat) (w : List Char) (hw : PushedKnown src (.tk w)) (h : symWord i ∉ s.vars.map (·.1)) : (pushMachine (llEnums src)).exec n (.simple (declTkToks i w)) s =
    .ok (.next { s with vars := (symWord i, ⟨.terminal, enumVal (cppTokenVariants src.tokens) w⟩) :: s.vars }) := by
  rw [exec_simple, show (pushMachine (llEnums src)).act = pushAct (llEnums src) from rfl]
  unfold pushAct declTkToks
  simp only [and_self, if_true]
  rw [show (llEnums src).tokens = (cppTokenVariants src.tokens).zipIdx from rfl, enumConst_eq, hw, Option.bind_some, declare_new s _ h]
  rfl

theorem push_push (i : Nat) (x : LLCSym) (vs : List (List Char × LLCSym)) (h : s.vars = (symWord i, x) :: vs) : (pushMachine (llEnums src)).exec n (.simple (pushToks i)) s =
    .ok (.next { s with stack := x :: s.stack }) := by
  rw [exec_simple, show (pushMachine (llEnums src)).act = pushAct (llEnums src) from rfl]
  unfold pushAct pushToks
  simp only [and_self, if_true]
  rw [h]
  simp [actRes]

theorem push_throw (x : List Char) : (pushMachine (llEnums src)).exec n (.simple (llThrowToks x)) s = .ok (.exit s x) := by
  rw [exec_simple, show (pushMachine (llEnums src)).act = pushAct (llEnums src) from rfl]
  unfold pushAct llThrowToks
  simp only [and_self, if_true, actRes]

theorem push_break : (pushMachine (llEnums src)).exec n (.simple (phrase "break")) s = .ok (.brk s) := by
  rw [exec_simple, show (pushMachine (llEnums src)).act = pushAct (llEnums src) from rfl, phrase_break]
  show actRes (doPhrase [("break", fun s => some (.brk s))] [.word "break".toList] s) = _
  rw [doPhrase_of (k := 0) (names := ["break"]) rfl (by decide +kernel) rfl]
  rfl

theorem push_block (ss : List CStmt) : (pushMachine (llEnums src)).exec n (.block ss) s = (pushMachine (llEnums src)).execs n 0 ss s := by rw [CMachine.exec]

theorem push_list (ps : List LLPushed) (hp : ∀ p ∈ ps, PushedKnown src p) (rest : List CStmt) : ∀ (k : Nat) (s : PushVars), (∀ v ∈ s.vars.map (·.1), ∃ j, j < k ∧ v = symWord j) →
    ∃ vars, (pushMachine (llEnums src)).execs n 0 ((ps.zipIdx k).flatMap pushStmts ++ rest) s =
      (pushMachine (llEnums src)).execs n 0 rest { s with stack := (ps.filterMap (pushedSym src)).reverse ++ s.stack, vars := vars } := by
  induction ps with
  | nil => intro k s _; exact ⟨s.vars, rfl⟩
  | cons p ps ih =>
    intro k s hs
    have ih := ih (fun q hq => hp q (by simp [hq]))
    have new : symWord k ∉ s.vars.map (·.1) := by
      intro h
      obtain ⟨j, h1, h2⟩ := hs _ h
      have := symWord_inj h2
      omega
    have old : ∀ x : LLCSym, ∀ v ∈ ((symWord k, x) :: s.vars).map (·.1), ∃ j, j < k + 1 ∧ v = symWord j := by
      intro x v hv
      rcases List.mem_cons.mp hv with rfl | hv
      · exact ⟨k, by omega, rfl⟩
      · obtain ⟨j, h1, h2⟩ := hs v hv
        exact ⟨j, by omega, h2⟩
    have hs' : ∀ v ∈ s.vars.map (·.1), ∃ j, j < k + 1 ∧ v = symWord j := by
      intro v hv
      obtain ⟨j, h1, h2⟩ := hs v hv
      exact ⟨j, by omega, h2⟩
    rw [List.zipIdx_cons, List.flatMap_cons, List.append_assoc]
    have hk := hp p (by simp)
    cases p with
    | nt w =>
      obtain ⟨vars, hv⟩ := ih (k + 1) { s with vars := (symWord k, ⟨.nonTerminal, enumVal src.nonTerminals w⟩) :: s.vars, stack := ⟨.nonTerminal, enumVal src.nonTerminals w⟩ :: s.stack } (old _)
      refine ⟨vars, ?_⟩
      simp only [pushStmts, List.cons_append, List.nil_append]
      rw [CMachine.execs_cons, push_declNt src n s k w hk new]
      simp only
      rw [CMachine.execs_cons, push_push src n _ k _ _ rfl]
      simp only
      rw [hv]
      simp [pushedSym]
    | tk w =>
      obtain ⟨vars, hv⟩ := ih (k + 1) { s with vars := (symWord k, ⟨.terminal, enumVal (cppTokenVariants src.tokens) w⟩) :: s.vars, stack := ⟨.terminal, enumVal (cppTokenVariants src.tokens) w⟩ :: s.stack } (old _)
      refine ⟨vars, ?_⟩
      simp only [pushStmts, List.cons_append, List.nil_append]
      rw [CMachine.execs_cons, push_declTk src n s k w hk new]
      simp only
      rw [CMachine.execs_cons, push_push src n _ k _ _ rfl]
      simp only
      rw [hv]
      simp [pushedSym]
    | eps =>
      obtain ⟨vars, hv⟩ := ih (k + 1) s hs'
      exact ⟨vars, by rw [show pushStmts (LLPushed.eps, k) = [] from rfl, List.nil_append, hv, List.filterMap_cons_none rfl]⟩
    | skip =>
      obtain ⟨vars, hv⟩ := ih (k + 1) s hs'
      exact ⟨vars, by rw [show pushStmts (LLPushed.skip, k) = [] from rfl, List.nil_append, hv, List.filterMap_cons_none rfl]⟩

theorem push_case (ps : List LLPushed) (hp : ∀ p ∈ ps, PushedKnown src p) (hs : s.vars = []) :
    ∃ vars, (pushMachine (llEnums src)).execs n 0 (llCaseBody ps) s = .ok (.brk { s with stack := (ps.filterMap (pushedSym src)).reverse ++ s.stack, vars := vars }) := by
  obtain ⟨vars, h⟩ := push_list src n ps hp [.simple (phrase "break")] 0 s (by rw [hs]; simp)
  refine ⟨vars, ?_⟩
  unfold llCaseBody
  rw [CMachine.execs_cons, push_block, h, CMachine.execs_cons, push_break]

theorem push_value_id : (pushMachine (llEnums src)).value (phrase "non_terminal.identifier") s = some (3 * s.nonTerminal.id) := by
  rw [show (pushMachine (llEnums src)).value = pushValue from rfl]
  unfold pushValue
  rw [if_pos rfl]

theorem push_value_tk : (pushMachine (llEnums src)).value (phrase "lookahead") s = some (3 * s.lookahead + 1) := by
  rw [show (pushMachine (llEnums src)).value = pushValue from rfl]
  unfold pushValue
  rw [if_neg (by decide +kernel), if_pos rfl]

end Push

/-- labels are declared and different -/
structure LLStateKnown (src : CppLLSource) (x : List (List Char × List LLPushed) × List Char) : Prop where
  labels : ∀ c ∈ x.1, enumValue (cppTokenVariants src.tokens) c.1 = some (enumVal (cppTokenVariants src.tokens) c.1)
  nodup : (x.1.map (·.1)).Nodup
  pushed : ∀ c ∈ x.1, ∀ p ∈ c.2, PushedKnown src p

/-- what a call does to the stack, or the message it throws -/
def StateOut (src : CppLLSource) (x : List (List Char × List LLPushed) × List Char) (s : PushVars) (next : PushVars → COut PushVars (List Char)) (r : Res (COut PushVars (List Char))) : Prop :=
  match cppSwitch s.lookahead (x.1.map fun c => (enumVal (cppTokenVariants src.tokens) c.1, c.2)) with
  | some ps => ∃ vars, r = .ok (next { s with stack := (ps.filterMap (pushedSym src)).reverse ++ s.stack, vars := vars })
  | none => r = .ok (.exit s x.2)

theorem push_state (src : CppLLSource) (n : Nat) (x : List (List Char × List LLPushed) × List Char) (hx : LLStateKnown src x) (s : PushVars) (hs : s.vars = []) :
    StateOut src x s .brk ((pushMachine (llEnums src)).execs n 0 (llStateBody x) s) := by
  unfold llStateBody
  rw [CMachine.execs_cons, push_block, CMachine.execs_cons]
  rw [(pushMachine (llEnums src)).exec_case_switch n tkCase (enumVal (cppTokenVariants src.tokens)) (fun v => 3 * v + 1) three_inj1 _ x.1 llCaseBody _ s s.lookahead (push_value_tk src s)
    (enumVal_nodup hx.labels hx.nodup) (by simp [tkCase]) ?_ ?_ ?_ ?_]
  · unfold StateOut
    cases hc : cppSwitch s.lookahead (x.1.map fun c => (enumVal (cppTokenVariants src.tokens) c.1, c.2)) with
    | none =>
      simp only
      rw [CMachine.execs_cons, push_throw]
      rfl
    | some ps =>
      simp only
      have hp : ∀ p ∈ ps, PushedKnown src p := by
        rw [cppSwitch_find] at hc
        cases hf : (x.1.map fun c => (enumVal (cppTokenVariants src.tokens) c.1, c.2)).find? (fun c => decide (c.1 = s.lookahead)) with
        | none => rw [hf] at hc; simp at hc
        | some y =>
          rw [hf] at hc
          have hy := List.mem_of_find?_eq_some hf
          obtain ⟨c, hcm, rfl⟩ := List.mem_map.mp hy
          simp at hc; subst hc
          exact hx.pushed c hcm
      obtain ⟨vars, h⟩ := push_case src n s ps hp hs
      refine ⟨vars, ?_⟩
      rw [h]
      simp only [afterSwitch]
      rw [CMachine.execs_cons, push_break]
  · intro c hc v
    exact applies_lr _ _ _ _ (by rw [show (pushMachine (llEnums src)).const = lrConst (llEnums src) from rfl, llConst_tk, hx.labels c hc]; rfl)
  · intro c _ a ha
    simp [llCaseBody] at ha; subst ha; rfl
  · intro a ha
    simp at ha; subst ha; rfl
  · intro c hc s'
    obtain ⟨vars, h⟩ := push_case src n s c.2 (hx.pushed c hc) hs
    rw [h]
    simp

theorem push_call (src : CppLLSource) (hx : ∀ x ∈ src.table, LLStateKnown src x.2) (hnd : (src.table.map (·.1)).Nodup) (A : LLCSym) (tk : Nat) (stack : List LLCSym) :
    match cppSwitch A.id src.table with
    | none => callVoid (pushMachine (llEnums src)) (llTableStmts src.table) ⟨A, tk, stack, []⟩ = .ok (.returned ⟨A, tk, stack, []⟩)
    | some x =>
      match cppSwitch tk (x.1.map fun c => (enumVal (cppTokenVariants src.tokens) c.1, c.2)) with
      | none => callVoid (pushMachine (llEnums src)) (llTableStmts src.table) ⟨A, tk, stack, []⟩ = .ok (.thrown x.2)
      | some ps => ∃ v, callVoid (pushMachine (llEnums src)) (llTableStmts src.table) ⟨A, tk, stack, []⟩ = .ok (.returned v) ∧ v.stack = (ps.filterMap (pushedSym src)).reverse ++ stack := by
  have key : (pushMachine (llEnums src)).execs 0 0 (llTableStmts src.table) ⟨A, tk, stack, []⟩ =
      afterSwitch (match cppSwitch A.id src.table with
        | some a => (pushMachine (llEnums src)).execs 0 0 (llStateBody a) ⟨A, tk, stack, []⟩
        | none => .ok (.next ⟨A, tk, stack, []⟩)) := by
    unfold llTableStmts
    rw [execs_one]
    rw [exec_plain_switch (pushMachine (llEnums src)) 0 numLabel id (fun v => 3 * v) three_inj _ src.table llStateBody ⟨A, tk, stack, []⟩ A.id (push_value_id src _) hnd (by simp [numLabel]) ?_ ?_ ?_]
    · rw [show (src.table.map fun c => (id c.1, c.2)) = src.table by simp]
      cases cppSwitch A.id src.table <;> rfl
    · intro c _ v
      exact applies_lr _ _ _ _ (lrConst_num (llEnums src) _)
    · intro c _ a ha
      simp [llStateBody] at ha; subst ha; rfl
    · intro c hc s'
      have h := push_state src 0 c.2 (hx c hc) ⟨A, tk, stack, []⟩ rfl
      unfold StateOut at h
      split at h
      · obtain ⟨vars, h⟩ := h; rw [h]; simp
      · rw [h]; simp
  unfold callVoid
  rw [key]
  cases hA : cppSwitch A.id src.table with
  | none => rfl
  | some x =>
    simp only
    have hm : (A.id, x) ∈ src.table := by
      rw [cppSwitch_find] at hA
      cases hf : src.table.find? (fun c => decide (c.1 = A.id)) with
      | none => rw [hf] at hA; simp at hA
      | some y =>
        rw [hf] at hA
        have hy := List.mem_of_find?_eq_some hf
        have hp := List.find?_some hf
        simp only [decide_eq_true_eq] at hp
        simp only [Option.map_some, Option.some.injEq] at hA
        rw [← hA, ← hp]
        exact hy
    have h := push_state src 0 x (hx _ hm) ⟨A, tk, stack, []⟩ rfl
    unfold StateOut at h
    simp only at h
    cases hc : cppSwitch tk (x.1.map fun c => (enumVal (cppTokenVariants src.tokens) c.1, c.2)) with
    | none =>
      rw [hc] at h
      simp only at h
      rw [h]
      rfl
    | some ps =>
      rw [hc] at h
      obtain ⟨vars, h⟩ := h
      rw [h]
      exact ⟨_, rfl, rfl⟩

/-! ## The visitor -/

theorem llVisit_body (e : Enums) (n : Nat) (pre x : List Char) (s : LLVisitVars) : (llVisitMachine e).execs n 0 (llVisitBody pre x) s = .ok (.brk { s with called := s.called ++ [pre ++ x] }) := by
  unfold llVisitBody
  rw [CMachine.execs_cons, show (llVisitMachine e).exec n (.simple [.word "visitor".toList, .sym ['.'], .word (pre ++ x), .sym ['('], .sym [')']]) s = .ok (.next { s with called := s.called ++ [pre ++ x] }) by
    simp [CMachine.exec, llVisitMachine, llVisitAct]]
  simp only
  rw [CMachine.execs_cons, exec_simple, show (llVisitMachine e).act = llVisitAct from rfl, phrase_break]
  rw [show ∀ s, llVisitAct [.word "break".toList] s = doPhrase [("break", fun s => some (.brk s))] [.word "break".toList] s from fun _ => rfl,
    doPhrase_of (k := 0) (names := ["break"]) rfl (by decide +kernel) rfl]
  rfl

theorem llVisit_call (src : CppLLSource) (pre : List Char) (hl : ∀ c ∈ src.named, enumValue src.nonTerminals c.1 = some (enumVal src.nonTerminals c.1)) (hnd : (src.named.map (·.1)).Nodup) (i : Nat) :
    callVoid (llVisitMachine (llEnums src)) (llVisitStmts pre src.named) ⟨i, []⟩ =
      .ok (.returned ⟨i, ((cppSwitch i (src.named.map fun c => (enumVal src.nonTerminals c.1, c.2))).map (pre ++ ·)).toList⟩) := by
  unfold callVoid llVisitStmts
  rw [CMachine.execs_cons]
  rw [exec_plain_switch (llVisitMachine (llEnums src)) 0 ntCase (enumVal src.nonTerminals) (fun v => 3 * v + 2) three_inj2 _ src.named (llVisitBody pre) ⟨i, []⟩ i ?_ (enumVal_nodup hl hnd) (by simp [ntCase]) ?_ ?_ ?_]
  · cases cppSwitch i (src.named.map fun c => (enumVal src.nonTerminals c.1, c.2)) with
    | none => rfl
    | some x =>
      simp only
      rw [llVisit_body]
      rfl
  · show (if phrase "non_terminal" = phrase "non_terminal" then some (3 * i + 2) else none) = _
    rw [if_pos rfl]
  · intro c hc v
    exact applies_lr _ _ _ _ (by rw [show (llVisitMachine (llEnums src)).const = lrConst (llEnums src) from rfl, llConst_nt, hl c hc]; rfl)
  · intro c _ a ha
    simp [llVisitBody] at ha
    rcases ha with rfl | rfl <;> rfl
  · intro c _ s'
    rw [llVisit_body]; simp

/-! ## The message -/

theorem llStream_nil (got expected : List Char) (n : Nat) : llStreamText got expected n [] = some [] := by
  cases n <;> rfl

theorem llStream_str (got expected : List Char) (n : Nat) (x : List Char) (ts : List CTok) : llStreamText got expected (n + 1) (.sym ['<'] :: .sym ['<'] :: .str x :: ts) =
    (llStreamText got expected n ts).map (x ++ ·) := rfl

theorem llStream_word (got expected : List Char) (n : Nat) (x : List Char) (ts : List CTok) : llStreamText got expected (n + 1) (.sym ['<'] :: .sym ['<'] :: .word x :: ts) =
    if phrase "lexer::get_token_name(got)" <+: .word x :: ts then (llStreamText got expected n ((CTok.word x :: ts).drop (phrase "lexer::get_token_name(got)").length)).map (got ++ ·)
    else if phrase "lexer::get_token_name(expected)" <+: .word x :: ts then (llStreamText got expected n ((CTok.word x :: ts).drop (phrase "lexer::get_token_name(expected)").length)).map (expected ++ ·)
    else none := rfl

/-- the message when a token is not the expected one -/
def llUnexpected (got expected : List Char) : List Char := "Unexpected token '".toList ++ got ++ "', expected token '".toList ++ expected ++ "'".toList

theorem llThrow_os (got expected : List Char) : (llThrowMachine got expected).exec 0 (.simple (phrase "os << \"Unexpected token '\" << lexer::get_token_name(got) << \"', expected token '\" << lexer::get_token_name(expected) << \"'\"")) [] =
    .ok (.next (llUnexpected got expected)) := by
  rw [exec_simple, show (llThrowMachine got expected).act = llThrowAct got expected from rfl,
    show phrase "os << \"Unexpected token '\" << lexer::get_token_name(got) << \"', expected token '\" << lexer::get_token_name(expected) << \"'\"" =
      [.word "os".toList, .sym ['<'], .sym ['<'], .str "Unexpected token '".toList,
      .sym ['<'], .sym ['<'], .word "lexer".toList, .sym [':', ':'], .word "get_token_name".toList, .sym ['('], .word "got".toList, .sym [')'], .sym ['<'], .sym ['<'],
      .str "', expected token '".toList, .sym ['<'], .sym ['<'], .word "lexer".toList, .sym [':', ':'], .word "get_token_name".toList, .sym ['('], .word "expected".toList, .sym [')'],
      .sym ['<'], .sym ['<'], .str "'".toList] by decide +kernel]
  unfold llThrowAct
  simp only [if_true, List.length_cons, List.length_nil]
  rw [llStream_str, llStream_word, if_pos (by decide +kernel), show (phrase "lexer::get_token_name(got)").length = 6 by decide +kernel]
  simp only [List.drop_succ_cons, List.drop_zero]
  rw [llStream_str, llStream_word, if_neg (by decide +kernel), if_pos (by decide +kernel), show (phrase "lexer::get_token_name(expected)").length = 6 by decide +kernel]
  simp only [List.drop_succ_cons, List.drop_zero]
  rw [llStream_str, llStream_nil]
  simp only [Option.map_some, actRes, List.nil_append, List.append_nil]
  refine congrArg (fun x => Except.ok (COut.next x)) ?_
  unfold llUnexpected
  rw [List.append_assoc, List.append_assoc, List.append_assoc]

theorem llThrow_call (got expected : List Char) : callC (llThrowMachine got expected) llThrowStmts [] = .ok (llUnexpected got expected, llUnexpected got expected) := by
  have h1 : (llThrowMachine got expected).exec 0 (.simple (phrase "std::ostringstream os")) [] = .ok (.next []) := by
    rw [exec_simple, show (llThrowMachine got expected).act = llThrowAct got expected from rfl,
      show phrase "std::ostringstream os" = [.word "std".toList, .sym [':', ':'], .word "ostringstream".toList, .word "os".toList] by decide +kernel,
      show llThrowAct got expected [.word "std".toList, .sym [':', ':'], .word "ostringstream".toList, .word "os".toList] [] =
        doPhrase throwTable [.word "std".toList, .sym [':', ':'], .word "ostringstream".toList, .word "os".toList] [] from rfl,
      doPhrase_of (k := 0) (names := ["std::ostringstream os", "throw std::runtime_error(os.str())"]) rfl (by decide +kernel) rfl]
    rfl
  have h3 : ∀ os, (llThrowMachine got expected).exec 0 (.simple (phrase "throw std::runtime_error(os.str())")) os = .ok (.exit os os) := by
    intro os
    rw [exec_simple, show (llThrowMachine got expected).act = llThrowAct got expected from rfl,
      show phrase "throw std::runtime_error(os.str())" = [.word "throw".toList, .word "std".toList, .sym [':', ':'], .word "runtime_error".toList, .sym ['('], .word "os".toList, .sym ['.'],
        .word "str".toList, .sym ['('], .sym [')'], .sym [')']] by decide +kernel,
      show llThrowAct got expected [.word "throw".toList, .word "std".toList, .sym [':', ':'], .word "runtime_error".toList, .sym ['('], .word "os".toList, .sym ['.'],
        .word "str".toList, .sym ['('], .sym [')'], .sym [')']] os =
        doPhrase throwTable [.word "throw".toList, .word "std".toList, .sym [':', ':'], .word "runtime_error".toList, .sym ['('], .word "os".toList, .sym ['.'],
        .word "str".toList, .sym ['('], .sym [')'], .sym [')']] os from rfl,
      doPhrase_of (k := 1) (names := ["std::ostringstream os", "throw std::runtime_error(os.str())"]) rfl (by decide +kernel) rfl]
    rfl
  unfold callC llThrowStmts
  rw [CMachine.execs_cons, h1]
  simp only
  rw [CMachine.execs_cons, llThrow_os]
  simp only
  rw [CMachine.execs_cons, h3]

end Verif
