import Verif.Model.Display
import Verif.Spec.Table
import Verif.Proofs.Names
import Verif.Proofs.CppLR
import Verif.Proofs.ItemAfter

/-! # Texts shown to the user -/

set_option autoImplicit false

namespace Verif

/-! ## Splitting -/

theorem split_append {c : Char} {l : List Char} (h : c ∉ l) (rest : List Char) : split c (l ++ c :: rest) = l :: split c rest := by
  induction l with
  | nil => simp [split]
  | cons x l ih =>
    simp only [List.mem_cons, not_or] at h
    rw [List.cons_append, split, if_neg (fun e => h.1 e.symm), ih h.2]

theorem split_flatten {c : Char} (ls : List (List Char)) (h : ∀ l ∈ ls, c ∉ l) (rest : List Char) : split c ((ls.map (· ++ [c])).flatten ++ rest) = ls ++ split c rest := by
  induction ls with
  | nil => rfl
  | cons l ls ih =>
    simp only [List.map_cons, List.flatten_cons, List.append_assoc, List.cons_append, List.nil_append]
    rw [split_append (h l List.mem_cons_self), ih fun l hl => h l (List.mem_cons_of_mem _ hl)]

theorem fieldAt_of {lines fields : List (List Char)} {rest tail line : List Char} {i j : Nat} {f : List Char} (h1 : ∀ l ∈ lines, '\n' ∉ l) (hi : lines[i]? = some line)
    (h2 : line = (fields.map (· ++ ['|'])).flatten ++ tail) (h3 : ∀ l ∈ fields, '|' ∉ l) (hj : fields[j]? = some f) :
    fieldAt ((lines.map (· ++ ['\n'])).flatten ++ rest) i j = some f := by
  unfold fieldAt
  rw [split_flatten lines h1, List.getElem?_append_left (by exact (List.getElem?_eq_some_iff.mp hi).1), hi]
  simp only [Option.bind_some]
  rw [h2, split_flatten fields h3, List.getElem?_append_left (by exact (List.getElem?_eq_some_iff.mp hj).1), hj]

/-! ## Names -/

theorem decimal_digit {n : Nat} {c : Char} (h : c ∈ decimal n) : c.isDigit = true := Nat.isDigit_of_mem_toDigits (by omega) (by omega) h

theorem decimal_not {n : Nat} {c : Char} (h : c.isDigit = false) : c ∉ decimal n := fun hm => by rw [decimal_digit hm] at h; cases h

variable {g : Grammar}

theorem symbolName_ok (wf : g.WF) {s : Sym} (h : s ∈ g.symbols ∨ s = .eps ∨ s = .eof) : ∃ n, g.symbolName s = .ok n := by
  rcases h with h | rfl | rfl
  · rcases List.mem_append.mp h with h | h
    · obtain ⟨a, rfl⟩ := wf.ts s h
      simp [Grammar.symbolName, tokenName_ok h, res_bind_of_ok]
    · obtain ⟨A, rfl⟩ := wf.nts s h
      simp only [Grammar.symbolName]
      split <;> exact ⟨_, rfl⟩
  · exact ⟨_, rfl⟩
  · exact ⟨_, rfl⟩

theorem rhs_symbols (wf : g.WF) {r : Rule} (hr : r ∈ g.rules) {s : Sym} (hs : s ∈ r.rhs) : s ∈ g.symbols ∨ s = .eps ∨ s = .eof := by
  cases s with
  | t a => exact .inl (List.mem_append.mpr (.inl (wf.t_declared r hr a hs)))
  | nt A => exact .inl (List.mem_append.mpr (.inr (wf.nt_declared r hr A hs)))
  | eps => exact .inr (.inl rfl)
  | eof => exact .inr (.inr rfl)

theorem symbolNames_ok (wf : g.WF) {ss : List Sym} (h : ∀ s ∈ ss, s ∈ g.symbols ∨ s = .eps ∨ s = .eof) : ∃ t, symbolNames g ss = .ok t := by
  obtain ⟨ns, hn⟩ := mapM_total ss fun s hs => symbolName_ok wf (h s hs)
  exact ⟨_, by unfold symbolNames; rw [hn]; rfl⟩

theorem lhsName_ok (wf : g.WF) {r : Rule} (hr : r ∈ g.rules) : ∃ t, g.symbolName (.nt r.lhs) = .ok t :=
  symbolName_ok wf (.inl (List.mem_append.mpr (.inr (wf.lhs_declared r hr))))

theorem mapM_forall₂ {α β : Type} {f : α → Res β} {P : α → β → Prop} : ∀ {xs : List α} {ys : List β}, xs.mapM f = .ok ys → (∀ x ∈ xs, ∀ y, f x = .ok y → P x y) → List.Forall₂ P xs ys := by
  intro xs
  induction xs with
  | nil => intro ys h _; simp [pure, Except.pure] at h; subst h; exact .nil
  | cons x xs ih =>
    intro ys h hp
    rw [List.mapM_cons] at h
    obtain ⟨y, h1, h⟩ := res_bind_ok.mp h
    obtain ⟨zs, h2, h⟩ := res_bind_ok.mp h
    simp [pure, Except.pure] at h
    subst h
    exact .cons (hp x (by simp) y h1) (ih h2 fun x hx => hp x (List.mem_cons_of_mem _ hx))

theorem symbolName_shows {X : Sym} {n : List Char} (h : g.symbolName X = .ok n) : NamesSymbol g X n := by
  cases X with
  | eps => cases h; exact .eps
  | eof => cases h; exact .eof
  | t a =>
    obtain ⟨name, h1, h⟩ := res_bind_ok.mp h
    cases h
    simp only [Grammar.tokenName] at h1
    split at h1
    · rename_i n hn
      cases h1
      exact .token (mget?_mem hn)
    · cases h1
  | nt A =>
    simp only [Grammar.symbolName, Grammar.productionName] at h
    split at h
    · rename_i n hn
      cases h
      exact .production (mget?_mem hn)
    · rename_i hn
      cases h
      refine .helper fun name hm => ?_
      have := mget?_isSome_of_key ⟨_, hm, rfl⟩
      rw [hn] at this
      cases this

theorem symbolNames_shows {ss : List Sym} {t : List Char} (h : symbolNames g ss = .ok t) : NamesString g ss t := by
  unfold symbolNames at h
  obtain ⟨ns, h1, h⟩ := res_bind_ok.mp h
  cases h
  exact ⟨ns, mapM_forall₂ h1 fun _ _ _ hx => symbolName_shows hx, rfl⟩

theorem ruleText_shows {r : Rule} {t : List Char} (h : ruleText g r = .ok t) : ShowsRule g r t := by
  unfold ruleText at h
  obtain ⟨rhs, h1, h⟩ := res_bind_ok.mp h
  obtain ⟨lhs, h2, h⟩ := res_bind_ok.mp h
  cases h
  exact ⟨lhs, rhs, symbolName_shows h2, symbolNames_shows h1, rfl⟩

theorem itemText_shows {i : Nat} {r : Rule} (hr : g.rules[i]? = some r) {dot : Nat} {la : Option Sym} {t : List Char} (h : itemText g ⟨some i, dot, la⟩ = .ok t) : ShowsItem g r dot t := by
  unfold itemText at h
  have e1 : ruleRhs g (some i) = r.rhs := by simp [ruleRhs, hr]
  have e2 : ruleLhs g (some i) = some r.lhs := by simp [ruleLhs, hr]
  simp only at h
  rw [e1, e2] at h
  obtain ⟨pre, h1, h⟩ := res_bind_ok.mp h
  obtain ⟨post, h2, h⟩ := res_bind_ok.mp h
  simp only at h
  obtain ⟨lhs, h3, h⟩ := res_bind_ok.mp h
  cases h
  exact ⟨lhs, pre, post, symbolName_shows h3, symbolNames_shows h1, symbolNames_shows h2, rfl⟩

theorem ruleText_ok (wf : g.WF) {r : Rule} (hr : r ∈ g.rules) : ∃ t, ruleText g r = .ok t := by
  obtain ⟨rhs, h1⟩ := symbolNames_ok wf (ss := r.rhs) fun s hs => rhs_symbols wf hr hs
  obtain ⟨lhs, h2⟩ := lhsName_ok wf hr
  exact ⟨_, by unfold ruleText; rw [h1, res_bind_of_ok, h2]; rfl⟩

theorem itemText_ok (wf : g.WF) {i : Nat} {r : Rule} (hr : g.rules[i]? = some r) (dot : Nat) (la : Option Sym) : ∃ t, itemText g ⟨some i, dot, la⟩ = .ok t := by
  have hm := List.mem_of_getElem? hr
  have e1 : ruleRhs g (some i) = r.rhs := by simp [ruleRhs, hr]
  have e2 : ruleLhs g (some i) = some r.lhs := by simp [ruleLhs, hr]
  obtain ⟨p, h1⟩ := symbolNames_ok wf (ss := r.rhs.take dot) fun s hs => rhs_symbols wf hm (List.mem_of_mem_take hs)
  obtain ⟨q, h2⟩ := symbolNames_ok wf (ss := r.rhs.drop dot) fun s hs => rhs_symbols wf hm (List.mem_of_mem_drop hs)
  obtain ⟨l, h3⟩ := lhsName_ok wf hm
  exact ⟨l ++ " -> ".toList ++ p ++ " • ".toList ++ q, by unfold itemText; simp only; rw [e1, e2, h1, res_bind_of_ok, h2, res_bind_of_ok]; simp only; rw [h3]; rfl⟩

/-! ## The table file -/

/-- the rules in the cells are rules of the grammar -/
def CellRules (g : Grammar) (tb : LRTable) : Prop := ∀ q s es, tb.get q s = some es → es ≠ [] ∧ ∀ i, .reduce i ∈ es → ∃ r, i = some r ∧ r < g.rules.length

theorem cellRules_of {kind : LRKind} {gr : LRGraph} (wf : g.WF) (hv : LoopInv g kind gr []) (hj : Justified g kind gr) : CellRules g (buildTable g gr) := by
  obtain ⟨h1, h2⟩ := buildTable_cell (gr := gr) wf
  intro q s es hes
  refine ⟨fun h => h1.nonempty q s (by rw [hes, h]), fun i hi => ?_⟩
  have hc : (buildTable g gr).cell q s = es := by simp [LRTable.cell, hes]
  rw [h2] at hc
  cases hq : gr.sets[q]? with
  | none => rw [hq] at hc; simp only at hc; rw [← hc] at hi; cases hi
  | some items =>
    rw [hq] at hc
    simp only at hc
    rw [← hc, cellContent] at hi
    have hi : .reduce i ∈ redEntries g items s := by
      rcases List.mem_append.mp hi with hi | hi
      · exact hi
      · split at hi
        · unfold lastEntry at hi
          split at hi
          · simp at hi
          · split at hi
            · simp at hi
            · split at hi <;> simp at hi
        · cases hi
    obtain ⟨it, m1, m2, _, m3⟩ := mem_redEntries.mp hi
    obtain ⟨k, r, e, hr⟩ := completed_rule hv.base hj wf hq m1 m2
    cases m3
    exact ⟨k, by rw [e], getElem?_lt hr⟩

theorem table_cellRules (wf : g.WF) (hne : NoEmptyRhs g) {allow : Bool} {kind : LRKind} {fuel : Nat} {tb : LRTable} {cs : List Conflict}
    (h : generateTable g allow kind fuel = .ok (.noConflicts tb) ∨ generateTable g allow kind fuel = .ok (.allowedConflicts tb cs)) : CellRules g tb := by
  rcases h with h | h
  · obtain ⟨_, gr, _, _, hv, hj, ha⟩ := generateTable_graph wf hne h
    rw [ha.2]; exact cellRules_of wf hv hj
  · obtain ⟨_, gr, _, _, hv, hj, ha⟩ := generateTable_graph wf hne h
    rw [ha.2.2.1]; exact cellRules_of wf hv hj

theorem cellText_ok {tb : LRTable} (hc : CellRules g tb) (q : Nat) (s : Sym) : ∃ t, cellText g (tb.get q s) = .ok t ∧ CellSays t (tb.get q s) := by
  cases h : tb.get q s with
  | none => exact ⟨_, rfl, .nothing⟩
  | some es =>
    obtain ⟨h1, h2⟩ := hc q s es h
    match es, h1, h2 with
    | [.shift n], _, _ => exact ⟨_, rfl, .shift n⟩
    | [.reduce i], _, h2 =>
      obtain ⟨r, rfl, hr⟩ := h2 i (by simp)
      exact ⟨_, by simp [cellText, hr], .reduce r⟩
    | [.error], _, _ => exact ⟨_, rfl, .error⟩
    | [.accept], _, _ => exact ⟨_, rfl, .accept⟩
    | e :: e' :: es, _, _ => exact ⟨_, by simp [cellText], .conflict e e' es⟩

theorem outputTable_ok (wf : g.WF) {tb : LRTable} (hc : CellRules g tb) : ∃ t, outputTable g tb = .ok t := by
  obtain ⟨rules, h1⟩ := mapM_total (f := fun (r : Rule × Nat) => (do
      let text ← ruleText g r.1
      .ok (decimal r.2 ++ ": ".toList ++ text ++ ['\n']) : Res (List Char))) g.rules.zipIdx (by
    intro x hx
    obtain ⟨t, ht⟩ := ruleText_ok wf (r := x.1) (List.mem_of_getElem? (List.mk_mem_zipIdx_iff_getElem?.mp hx))
    exact ⟨_, by rw [ht]; rfl⟩)
  obtain ⟨names, h2⟩ := mapM_total (f := g.symbolName) (g.symbols ++ [Sym.eof]) (by
    intro s hs
    refine symbolName_ok wf ?_
    rcases List.mem_append.mp hs with h | h
    · exact .inl h
    · exact .inr (.inr (by simpa using h)))
  obtain ⟨rows, h3⟩ := mapM_total (f := tableRow g tb ((g.symbols ++ [Sym.eof]).zip (names.map byteLen))) (List.range tb.stateCount) (by
    intro q _
    obtain ⟨cells, hcs⟩ := mapM_total (f := fun (c : Sym × Nat) => (do
        let text ← cellText g (tb.get q c.1)
        .ok (padRight c.2 text ++ ['|']) : Res (List Char))) ((g.symbols ++ [Sym.eof]).zip (names.map byteLen)) (by
      intro c _
      obtain ⟨t, ht, _⟩ := cellText_ok hc q c.1
      exact ⟨_, by rw [ht]; rfl⟩)
    exact ⟨_, by unfold tableRow; rw [hcs]; rfl⟩)
  exact ⟨_, by unfold outputTable; rw [h1, res_bind_of_ok, h2, res_bind_of_ok, h3]; rfl⟩

/-! ## Reading it back -/

theorem cellText_chars {o : Option (List TableEntry)} {t : List Char} (h : CellSays t o) : '|' ∉ t ∧ '\n' ∉ t ∧ trimmed t = t := by
  have hd : ∀ (c : Char) (n : Nat), c ≠ '|' → c ≠ '\n' → '|' ∉ c :: decimal n ∧ '\n' ∉ c :: decimal n ∧ trimmed (c :: decimal n) = c :: decimal n := by
    intro c n h1 h2
    refine ⟨?_, ?_, ?_⟩
    · simp only [List.mem_cons, not_or]; exact ⟨fun e => h1 e.symm, decimal_not (by decide)⟩
    · simp only [List.mem_cons, not_or]; exact ⟨fun e => h2 e.symm, decimal_not (by decide)⟩
    · unfold trimmed
      have hne : decimal n ≠ [] := Nat.toDigits_ne_nil
      obtain ⟨l, x, e⟩ := (List.eq_nil_or_concat (decimal n)).resolve_left hne
      rw [List.concat_eq_append] at e
      have hx : x ≠ ' ' := fun hx => decimal_not (n := n) (c := ' ') (by decide) (by rw [e, hx]; simp)
      rw [e]
      simp [hx]
  cases h with
  | nothing => decide
  | shift q => exact hd 's' q (by decide) (by decide)
  | reduce r => exact hd 'r' r (by decide) (by decide)
  | error => decide
  | accept => decide
  | conflict => decide

theorem trimmed_pad {t : List Char} (h : trimmed t = t) (w : Nat) : trimmed (padRight w t) = t := by
  unfold padRight
  unfold trimmed at h ⊢
  rw [List.reverse_append, List.reverse_replicate]
  have : ∀ k, (List.replicate k ' ' ++ t.reverse).dropWhile (· = ' ') = t.reverse.dropWhile (· = ' ') := by
    intro k
    induction k with
    | zero => rfl
    | succ k ih => rw [List.replicate_succ, List.cons_append, List.dropWhile_cons_of_pos (by simp), ih]
  rw [this, h]

theorem pad_chars {t : List Char} {c : Char} (h : c ∉ t) (hc : c ≠ ' ') (w : Nat) : c ∉ padRight w t := by
  unfold padRight
  rw [List.mem_append, not_or]
  exact ⟨h, fun hm => hc (List.eq_of_mem_replicate hm)⟩

/-- the cells of a row -/
theorem tableRow_spec {tb : LRTable} (hc : CellRules g tb) {columns : List (Sym × Nat)} {q : Nat} {row : List Char} (h : tableRow g tb columns q = .ok row) :
    ∃ fields : List (List Char), row = (fields.map (· ++ ['|'])).flatten ++ ['\n'] ∧ fields.length = columns.length + 1 ∧ (∀ f ∈ fields, '|' ∉ f ∧ '\n' ∉ f) ∧
      fields[0]? = some (padZero (decimal tb.stateCount).length q) ∧
      ∀ (i : Nat) (c : Sym × Nat), columns[i]? = some c → ∃ f, fields[i + 1]? = some f ∧ CellSays (trimmed f) (tb.get q c.1) := by
  unfold tableRow at h
  obtain ⟨cells, h1, h2⟩ := res_bind_ok.mp h
  obtain ⟨l1, l2⟩ := mapM_ok _ _ h1
  have key : ∀ (cs : List (Sym × Nat)) (ys : List (List Char)), cs.mapM (fun c => (do
        let text ← cellText g (tb.get q c.1)
        .ok (padRight c.2 text ++ ['|']) : Res (List Char))) = .ok ys →
      ∃ fs : List (List Char), ys = fs.map (· ++ ['|']) ∧ fs.length = cs.length ∧ (∀ f ∈ fs, '|' ∉ f ∧ '\n' ∉ f) ∧
        ∀ (i : Nat) (c : Sym × Nat), cs[i]? = some c → ∃ f, fs[i]? = some f ∧ CellSays (trimmed f) (tb.get q c.1) := by
    intro cs
    induction cs with
    | nil => intro ys h; simp [pure, Except.pure] at h; subst h; exact ⟨[], rfl, rfl, by simp, by simp⟩
    | cons c cs ih =>
      intro ys h
      rw [List.mapM_cons] at h
      obtain ⟨y, a1, a2⟩ := res_bind_ok.mp h
      obtain ⟨zs, a3, a4⟩ := res_bind_ok.mp a2
      obtain ⟨fs, b1, b2, b3, b4⟩ := ih zs a3
      obtain ⟨t, a5, a6⟩ := res_bind_ok.mp a1
      obtain ⟨t', c1, c2⟩ := cellText_ok hc q c.1
      rw [a5] at c1
      cases c1
      obtain ⟨d1, d2, d3⟩ := cellText_chars c2
      simp [pure, Except.pure] at a4
      cases a6
      subst a4
      refine ⟨padRight c.2 t :: fs, by rw [b1]; rfl, by simp [b2], ?_, ?_⟩
      · intro f hf
        rcases List.mem_cons.mp hf with rfl | hf
        · exact ⟨pad_chars d1 (by decide) _, pad_chars d2 (by decide) _⟩
        · exact b3 f hf
      · intro i c' hi
        cases i with
        | zero => simp at hi; subst hi; exact ⟨_, rfl, by rw [trimmed_pad d3]; exact c2⟩
        | succ i => simpa using b4 i c' (by simpa using hi)
  obtain ⟨fs, b1, b2, b3, b4⟩ := key columns cells h1
  cases h2
  refine ⟨padZero (decimal tb.stateCount).length q :: fs, by rw [b1]; simp, by simp [b2], ?_, rfl, ?_⟩
  · intro f hf
    rcases List.mem_cons.mp hf with rfl | hf
    · unfold padZero
      constructor
      · rw [List.mem_append, not_or]
        exact ⟨fun h => by have := List.eq_of_mem_replicate h; revert this; decide, decimal_not (by decide)⟩
      · rw [List.mem_append, not_or]
        exact ⟨fun h => by have := List.eq_of_mem_replicate h; revert this; decide, decimal_not (by decide)⟩
    · exact b3 f hf
  · intro i c hi
    exact b4 i c hi

theorem symbolName_lacks {c : Char} (hn : NamesLack g c) (hc : c.isDigit = false) (hc' : c ∉ "()<anon>epsend".toList) {s : Sym} {n : List Char} (h : g.symbolName s = .ok n) :
    c ∉ n := by
  have hd : ∀ k, c ∉ decimal k := fun k => decimal_not hc
  have h1 : c ≠ '(' ∧ c ≠ ')' ∧ c ∉ "<anon>(".toList ∧ c ∉ "<eps>".toList ∧ c ∉ "<end>".toList := by
    refine ⟨?_, ?_, ?_, ?_, ?_⟩ <;> (revert hc'; simp; try tauto)
  cases s with
  | t a =>
    obtain ⟨m, a1, a2⟩ := res_bind_ok.mp h
    cases a2
    unfold Grammar.tokenName at a1
    split at a1
    · rename_i x hx
      cases a1
      have := hn.1 _ (mget?_mem hx)
      simp only [List.mem_append, List.mem_singleton, not_or]
      exact ⟨⟨⟨this, h1.1⟩, hd a⟩, h1.2.1⟩
    · cases a1
  | nt A =>
    simp only [Grammar.symbolName] at h
    split at h
    · rename_i x hx
      cases h
      have := hn.2 _ (mget?_mem hx)
      simp only [List.mem_append, List.mem_singleton, not_or]
      exact ⟨⟨⟨this, h1.1⟩, hd A⟩, h1.2.1⟩
    · cases h
      simp only [List.mem_append, List.mem_singleton, not_or]
      exact ⟨⟨h1.2.2.1, hd A⟩, h1.2.1⟩
  | eps => cases h; exact h1.2.2.2.1
  | eof => cases h; exact h1.2.2.2.2

theorem mapM_mem {α β : Type} {f : α → Res β} {xs : List α} {ys : List β} (h : xs.mapM f = .ok ys) {y : β} (hy : y ∈ ys) : ∃ x ∈ xs, f x = .ok y := by
  obtain ⟨h1, h2⟩ := mapM_ok _ _ h
  obtain ⟨i, hi⟩ := List.mem_iff_getElem?.mp hy
  have hlt := getElem?_lt hi
  obtain ⟨y', a1, a2⟩ := h2 i _ (List.getElem?_eq_getElem (by omega))
  rw [hi] at a1
  cases a1
  exact ⟨_, List.getElem_mem _, a2⟩

theorem intercalate_lacks {c : Char} (hc : c ≠ ' ') : ∀ {ns : List (List Char)}, (∀ n ∈ ns, c ∉ n) → c ∉ List.intercalate [' '] ns := by
  intro ns
  induction ns with
  | nil => intro _ hm; simp [List.intercalate] at hm
  | cons n ns ih =>
    intro h hm
    cases ns with
    | nil => simp [List.intercalate] at hm; exact h n List.mem_cons_self hm
    | cons n' ns =>
      have e : List.intercalate [' '] (n :: n' :: ns) = n ++ ' ' :: List.intercalate [' '] (n' :: ns) := by simp [List.intercalate]
      rw [e, List.mem_append, List.mem_cons] at hm
      rcases hm with hm | hm | hm
      · exact h n List.mem_cons_self hm
      · exact hc hm
      · exact ih (fun n hn => h n (List.mem_cons_of_mem _ hn)) hm

theorem ruleText_lacks {c : Char} (hn : NamesLack g c) (hc : c.isDigit = false) (hc' : c ∉ "()<anon>epsend -".toList) {r : Rule} {t : List Char} (h : ruleText g r = .ok t) : c ∉ t := by
  have h0 : c ∉ "()<anon>epsend".toList ∧ c ≠ ' ' ∧ c ∉ " -> ".toList := by
    refine ⟨?_, ?_, ?_⟩ <;> (revert hc'; simp; try tauto)
  unfold ruleText at h
  obtain ⟨rhs, h1, h⟩ := res_bind_ok.mp h
  obtain ⟨lhs, h2, h⟩ := res_bind_ok.mp h
  cases h
  unfold symbolNames at h1
  obtain ⟨ns, h3, h4⟩ := res_bind_ok.mp h1
  cases h4
  simp only [List.mem_append, not_or]
  refine ⟨⟨symbolName_lacks hn hc h0.1 h2, h0.2.2⟩, intercalate_lacks h0.2.1 fun n hm => ?_⟩
  obtain ⟨s, _, hs⟩ := mapM_mem h3 hm
  exact symbolName_lacks hn hc h0.1 hs

theorem map_congr_list {α β : Type} {P : α → β → Prop} : ∀ (ys : List β), (∀ y ∈ ys, ∃ x, P x y) → ∃ xs : List α, List.Forall₂ P xs ys := by
  intro ys
  induction ys with
  | nil => intro _; exact ⟨[], .nil⟩
  | cons y ys ih =>
    intro h
    obtain ⟨x, hx⟩ := h y List.mem_cons_self
    obtain ⟨xs, hxs⟩ := ih fun y hy => h y (List.mem_cons_of_mem _ hy)
    exact ⟨x :: xs, .cons hx hxs⟩

theorem forall₂_map {α β : Type} {f : α → β} {P : α → Prop} : ∀ {xs : List α} {ys : List β}, List.Forall₂ (fun x y => y = f x ∧ P x) xs ys → ys = xs.map f ∧ ∀ x ∈ xs, P x := by
  intro xs ys h
  induction h with
  | nil => simp
  | cons h _ ih => exact ⟨by rw [h.1, ih.1]; rfl, fun x hx => (List.mem_cons.mp hx).elim (fun e => e ▸ h.2) (ih.2 x)⟩

/-- the table file, line by line -/
theorem outputTable_lines {tb : LRTable} (hc : CellRules g tb) (hn : NamesLack g '\n') (hn' : NamesLack g '|') {text : List Char} (h : outputTable g tb = .ok text) :
    ∃ lines : List (List Char), text = (lines.map (· ++ ['\n'])).flatten ∧ (∀ l ∈ lines, '\n' ∉ l) ∧ lines.length = g.rules.length + 3 + tb.stateCount ∧
      (∀ (i : Nat) (r : Rule), g.rules[i]? = some r → ∃ t, ruleText g r = .ok t ∧ lines[i + 1]? = some (decimal i ++ ": ".toList ++ t)) ∧
      (∃ (line : List Char) (fields : List (List Char)), lines[g.rules.length + 2]? = some line ∧ line = (fields.map (· ++ ['|'])).flatten ∧ (∀ f ∈ fields, '|' ∉ f) ∧
        ∀ (i : Nat) (s : Sym), (g.symbols ++ [Sym.eof])[i]? = some s → ∃ n, g.symbolName s = .ok n ∧ fields[i + 1]? = some n) ∧
      ∀ q, q < tb.stateCount → ∃ (line : List Char) (fields : List (List Char)), lines[g.rules.length + 3 + q]? = some line ∧ line = (fields.map (· ++ ['|'])).flatten ∧ (∀ f ∈ fields, '|' ∉ f) ∧
        fields[0]? = some (padZero (decimal tb.stateCount).length q) ∧ ∀ (i : Nat) (s : Sym), (g.symbols ++ [Sym.eof])[i]? = some s → ∃ f, fields[i + 1]? = some f ∧ CellSays (trimmed f) (tb.get q s) := by
  unfold outputTable at h
  obtain ⟨rules, h1, h⟩ := res_bind_ok.mp h
  obtain ⟨names, h2, h⟩ := res_bind_ok.mp h
  obtain ⟨rows, h3, h⟩ := res_bind_ok.mp h
  obtain ⟨a1, a2⟩ := mapM_ok _ _ h1
  obtain ⟨b1, b2⟩ := mapM_ok _ _ h2
  obtain ⟨c1, c2⟩ := mapM_ok _ _ h3
  -- the lines of the rules
  obtain ⟨rl, hrl⟩ := map_congr_list (P := fun (x y : List Char) => y = x ++ ['\n'] ∧ '\n' ∉ x) rules (by
    intro y hy
    obtain ⟨x, hx, hf⟩ := mapM_mem h1 hy
    obtain ⟨t, t1, t2⟩ := res_bind_ok.mp hf
    cases t2
    refine ⟨decimal x.2 ++ ": ".toList ++ t, rfl, ?_⟩
    simp only [List.mem_append, not_or]
    exact ⟨⟨decimal_not (by decide), by decide⟩, ruleText_lacks hn (by decide) (by decide) t1⟩)
  obtain ⟨hrl1, hrl2⟩ := forall₂_map hrl
  -- the rows
  obtain ⟨ql, hql⟩ := map_congr_list (P := fun (x y : List Char) => y = x ++ ['\n'] ∧ '\n' ∉ x) rows (by
    intro y hy
    obtain ⟨q, hq, hf⟩ := mapM_mem h3 hy
    obtain ⟨fs, f1, f2, f3, f0, f4⟩ := tableRow_spec hc hf
    refine ⟨(fs.map (· ++ ['|'])).flatten, f1, ?_⟩
    intro hm
    obtain ⟨l, hl, hm⟩ := List.mem_flatten.mp hm
    obtain ⟨f, hf, rfl⟩ := List.mem_map.mp hl
    rcases List.mem_append.mp hm with hm | hm
    · exact (f3 f hf).2 hm
    · simp at hm)
  obtain ⟨hql1, hql2⟩ := forall₂_map hql
  have lrl : rl.length = g.rules.length := by rw [← List.length_zipIdx (l := g.rules) (i := 0), ← a1, hrl1, List.length_map]
  have lql : ql.length = tb.stateCount := by rw [← List.length_range (n := tb.stateCount), ← c1, hql1, List.length_map]
  let header : List Char := List.replicate (decimal tb.stateCount).length ' ' ++ (names.map ('|' :: ·)).flatten ++ ['|']
  have hshift : ∀ (p : List Char) (ns : List (List Char)), p ++ (ns.map ('|' :: ·)).flatten ++ ['|'] = ((p :: ns).map (· ++ ['|'])).flatten := by
    intro p ns
    induction ns generalizing p with
    | nil => simp
    | cons n ns ih =>
      have := ih n
      simp only [List.map_cons, List.flatten_cons, List.append_assoc, List.cons_append, List.nil_append] at this ⊢
      rw [this]
  have hheader : header = ((List.replicate (decimal tb.stateCount).length ' ' :: names).map (· ++ ['|'])).flatten := hshift _ _
  have hnames : ∀ n ∈ names, '|' ∉ n ∧ '\n' ∉ n := by
    intro n hm
    obtain ⟨s, _, hs⟩ := mapM_mem h2 hm
    exact ⟨symbolName_lacks hn' (by decide) (by decide) hs, symbolName_lacks hn (by decide) (by decide) hs⟩
  have hrep : ∀ c : Char, c ≠ ' ' → c ∉ List.replicate (decimal tb.stateCount).length ' ' := fun c hc hm => hc (List.eq_of_mem_replicate hm)
  have hhf : ∀ f ∈ List.replicate (decimal tb.stateCount).length ' ' :: names, '|' ∉ f ∧ '\n' ∉ f := by
    intro f hf
    rcases List.mem_cons.mp hf with rfl | hf
    · exact ⟨hrep _ (by decide), hrep _ (by decide)⟩
    · exact hnames f hf
  refine ⟨"Rules:".toList :: rl ++ [[], header] ++ ql, ?_, ?_, by simp [lrl, lql]; omega, ?_, ?_, ?_⟩
  · cases h
    rw [hrl1, hql1]
    simp [header]
  · intro l hl
    simp only [List.mem_append, List.mem_cons, List.not_mem_nil, or_false] at hl
    rcases hl with ((rfl | hl) | rfl | rfl) | hl
    · decide
    · exact hrl2 l hl
    · simp
    · rw [hheader]
      intro hm
      obtain ⟨l, hl, hm⟩ := List.mem_flatten.mp hm
      obtain ⟨f, hf, rfl⟩ := List.mem_map.mp hl
      rcases List.mem_append.mp hm with hm | hm
      · exact (hhf f hf).2 hm
      · simp at hm
    · exact hql2 l hl
  · intro i r hr
    have hlt := getElem?_lt hr
    obtain ⟨y, y1, y2⟩ := a2 i (r, i) (by rw [List.getElem?_zipIdx, hr]; simp)
    obtain ⟨t, t1, t2⟩ := res_bind_ok.mp y2
    refine ⟨t, t1, ?_⟩
    have e : ("Rules:".toList :: rl ++ [[], header] ++ ql)[i + 1]? = rl[i]? := by
      rw [List.append_assoc, List.cons_append, List.getElem?_cons_succ, List.getElem?_append_left (by omega)]
    rw [e]
    rw [hrl1, List.getElem?_map] at y1
    cases hi : rl[i]? with
    | none => rw [hi] at y1; cases y1
    | some l =>
      rw [hi] at y1
      cases t2
      simp only [Option.map_some, Option.some.injEq] at y1
      rw [List.append_cancel_right y1]
  · refine ⟨header, _, ?_, hheader, fun f hf => (hhf f hf).1, ?_⟩
    · rw [List.append_assoc, List.cons_append, List.getElem?_cons_succ, List.getElem?_append_right (by omega), lrl]
      simp
    · intro i s hs
      obtain ⟨n, n1, n2⟩ := b2 i s hs
      exact ⟨n, n2, n1⟩
  · intro q hq
    obtain ⟨y, y1, y2⟩ := c2 q q (by rw [List.getElem?_range hq])
    obtain ⟨fs, f1, f2, f3, f0, f4⟩ := tableRow_spec hc y2
    refine ⟨(fs.map (· ++ ['|'])).flatten, fs, ?_, rfl, fun f hf => (f3 f hf).1, f0, ?_⟩
    · have e : ("Rules:".toList :: rl ++ [[], header] ++ ql)[g.rules.length + 3 + q]? = ql[q]? := by
        rw [List.getElem?_append_right (by simp [lrl])]
        congr 1
        simp [lrl]
      rw [e]
      rw [hql1, List.getElem?_map] at y1
      cases hi : ql[q]? with
      | none => rw [hi] at y1; cases y1
      | some l =>
        rw [hi] at y1
        rw [f1] at y1
        simp at y1
        rw [y1]
    · intro i s hs
      have hlen : i < (names.map byteLen).length := by rw [List.length_map, b1]; exact getElem?_lt hs
      exact f4 i (s, (names.map byteLen)[i]) (by rw [List.getElem?_zip_eq_some]; exact ⟨hs, List.getElem?_eq_getElem hlen⟩)

end Verif
