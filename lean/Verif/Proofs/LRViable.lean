import Verif.Proofs.LRSound
import Verif.Proofs.GrammarLang

/-! # Viable prefixes, and what a finished LR(1) parse has seen -/

set_option autoImplicit false

namespace Verif

variable {T : Type} {g : Grammar} {kind : LRKind} {gr : LRGraph}

theorem derives_strip {rules : List Rule} {ss : List Sym} {w : List Nat} (h : Derives rules (strip ss) w) : Derives rules ss w := by
  induction ss generalizing w with
  | nil => simpa [strip] using h
  | cons a ss ih =>
    by_cases ha : a = .eps
    · subst ha
      exact .eps (ih (by simpa [strip] using h))
    · have e : strip (a :: ss) = [a] ++ strip ss := by simp [strip, ha]
      rw [e] at h
      obtain ⟨u, v, rfl, h1, h2⟩ := h.split
      exact Derives.append h1 (ih h2)

theorem rewrites_derives {rules : List Rule} {x y : List Sym} (h : Rewrites rules x y) : ∀ {w : List Nat}, Derives rules y w → Derives rules x w := by
  induction h with
  | refl => intro w h; exact h
  | @step α β r _ hr ih =>
    intro w hw
    apply ih
    obtain ⟨u, v, rfl, h1, h2⟩ := hw.split
    obtain ⟨u1, u2, rfl, h3, h4⟩ := h1.split
    have : Derives rules (.nt r.lhs :: β) (u2 ++ v) := .nonterm hr (derives_strip h4) h2
    rw [List.append_assoc]
    exact h3.append this

/-- root symbol of a tree -/
def PTree.root : PTree T → Sym
  | .leaf a _ => .t a
  | .node r _ => .nt r.lhs

theorem isParseTree_root {rules : List Rule} {X : Sym} {t : PTree T} (h : IsParseTree rules X t) (hX : X ≠ .eps) : X = t.root := by
  unfold IsParseTree at h
  cases h with
  | eps _ => exact absurd rfl hX
  | term _ => rfl
  | nonterm _ _ _ => rfl

theorem stackSym_ne_eps {x : StackSym} {X : Sym} (hx : x.sym = some X) : X ≠ .eps := by
  rintro rfl
  unfold StackSym.sym at hx
  split at hx <;> simp at hx

theorem strip_cons {a : Sym} (ha : a ≠ .eps) (ss : List Sym) : strip (a :: ss) = a :: strip ss := by simp [strip, ha]

theorem lr_drop_of_get {α : Type} {l : List α} {d : Nat} {x : α} (h : l[d]? = some x) : l.drop d = x :: l.drop (d + 1) := by
  have hl := getElem?_lt h
  rw [List.drop_eq_getElem_cons hl]
  rw [List.getElem?_eq_getElem hl] at h
  simp at h
  rw [h]

/-- the symbols before the dot's position are on the stack; what comes after can still be parsed -/
theorem viable_closure {α : List Sym} {c c' : Core} (hc : ∃ δ, Rewrites g.rules [g.entry] (α ++ strip ((ruleRhs g c.1).drop c.2) ++ δ)) (h : CClosure g kind c c') :
    ∃ δ, Rewrites g.rules [g.entry] (α ++ strip ((ruleRhs g c'.1).drop c'.2) ++ δ) := by
  induction h with
  | self => exact hc
  | @step a b _ hs ih =>
    obtain ⟨A, i, r, h1, h2, rfl, h4, rfl⟩ := hs
    obtain ⟨δ, h⟩ := ih
    unfold Core.after at h1
    rw [lr_drop_of_get h1, strip_cons (by simp)] at h
    refine ⟨strip ((ruleRhs g a.1).drop (a.2 + 1)) ++ δ, ?_⟩
    have h' : Rewrites g.rules [g.entry] (α ++ .nt r.lhs :: (strip ((ruleRhs g a.1).drop (a.2 + 1)) ++ δ)) := by simpa using h
    have := Rewrites.step h' (List.mem_of_getElem? h2)
    rw [strip_lead] at this
    simp only [ruleRhs, h2, Option.map_some, Option.getD_some]
    exact this

theorem stack_viable (wf : g.WF) (hb : Base g kind gr) {stk : List StackSym} {ts : List (PTree T)} (h : StackOk g gr stk ts) :
    ∀ (q : Nat) (rest : List StackSym) (s : List Item), stk = .state q :: rest → gr.sets[q]? = some s → ∀ c, InCore s c →
      ∃ δ, Rewrites g.rules [g.entry] (ts.reverse.map PTree.root ++ strip ((ruleRhs g c.1).drop c.2) ++ δ) := by
  induction h with
  | base =>
    rintro q rest s hq hs c ⟨it, h1, h2, h3⟩
    simp at hq
    obtain ⟨rfl, rfl⟩ := hq
    obtain ⟨s', hs', hcl⟩ := hb.start
    rw [hs] at hs'; simp at hs'; subst hs'
    have hcc := (closure_core (kind := kind) wf (it0 := entryItem kind) (c := c) (entryItem_ok (g := g)).la).mp ⟨it, (hcl it).mp h1, h2, h3⟩
    refine viable_closure (kind := kind) (c := (none, 0)) ⟨[], ?_⟩ hcc
    obtain ⟨A, hA, _⟩ := wf.entry_declared
    simp only [ruleRhs, List.drop_zero, List.reverse_nil, List.map_nil, List.nil_append, List.append_nil]
    rw [hA]
    rw [strip_cons (by simp)]
    simp only [strip, List.filter_nil]
    exact .refl
  | @push q0 q' rest0 ts0 x X t hst he hx ht ih =>
    intro q rest s hq hs c hc
    simp at hq
    obtain ⟨rfl, rfl⟩ := hq
    obtain ⟨s0, s1, h1, h2, h3, _⟩ := hb.edge _ _ _ he
    rw [hs] at h2; simp at h2; subst h2
    obtain ⟨k, h4, h5, h6, h7⟩ := (h3 c).mp hc
    obtain ⟨δ, hδ⟩ := ih q0 rest0 s0 rfl h1 k h4
    refine viable_closure ⟨δ, ?_⟩ h7
    unfold Core.after at h5
    have hXe := stackSym_ne_eps hx
    rw [lr_drop_of_get h5, strip_cons hXe] at hδ
    rw [isParseTree_root ht hXe] at hδ
    simpa using hδ

theorem stackOk_forest {stk : List StackSym} {ts : List (PTree T)} (h : StackOk g gr stk ts) : Forest g.rules (ts.reverse.map PTree.root) ts.reverse := by
  induction h with
  | base => exact .nil
  | push _ _ hx ht ih =>
    simp only [List.reverse_cons, List.map_append, List.map_cons, List.map_nil]
    rw [← isParseTree_root ht (stackSym_ne_eps hx)]
    exact forest_append ih ht

/-- sentential forms consist of declared symbols -/
theorem rewrites_declared (wf : g.WF) {x y : List Sym} (h : Rewrites g.rules x y) (hx : ∀ s ∈ x, s ∈ g.symbols) : ∀ s ∈ y, s ∈ g.symbols := by
  induction h with
  | refl => exact hx
  | @step α β r _ hr ih =>
    intro s hs
    simp only [List.mem_append] at hs
    rcases hs with (hs | hs) | hs
    · exact ih s (by simp [hs])
    · simp only [strip, List.mem_filter, ne_eq, decide_not, Bool.not_eq_eq_eq_not, Bool.not_true, decide_eq_false_iff_not] at hs
      obtain ⟨h1, h2⟩ := hs
      cases s with
      | eps => exact absurd rfl h2
      | eof => exact absurd h1 (wf.no_eof r hr)
      | t a => exact List.mem_append_left _ (wf.t_declared r hr a h1)
      | nt A => exact List.mem_append_right _ (wf.nt_declared r hr A h1)
    · exact ih s (by simp [hs])

theorem derives_some (wf : g.WF) (hp : Productive g) : ∀ (ss : List Sym), (∀ s ∈ ss, s ∈ g.symbols) → ∃ w, Derives g.rules ss w := by
  intro ss
  induction ss with
  | nil => intro _; exact ⟨[], .nil⟩
  | cons a ss ih =>
    intro h
    obtain ⟨w, hw⟩ := ih (fun s hs => h s (List.mem_cons_of_mem _ hs))
    rcases List.mem_append.mp (h a List.mem_cons_self) with ha | ha
    · obtain ⟨b, rfl⟩ := wf.ts a ha
      exact ⟨_, .term hw⟩
    · obtain ⟨A, rfl⟩ := wf.nts a ha
      obtain ⟨u, hu⟩ := hp A ha
      exact ⟨u ++ w, Derives.append hu hw⟩

/-- the tokens on the stack can be completed to a sentence -/
theorem stack_prefix (wf : g.WF) (hb : Base g kind gr) (hp : Productive g) {stk : List StackSym} {ts : List (PTree T)} (h : StackOk g gr stk ts) :
    ∃ v, Derives g.rules [g.entry] ((PTree.tokensList ts.reverse).map (·.1) ++ v) := by
  obtain ⟨q, rest, rfl⟩ := h.head
  obtain ⟨s, hs⟩ := h.range hb
  obtain ⟨it, hit⟩ := List.exists_mem_of_ne_nil _ (hb.nonempty _ _ hs)
  obtain ⟨δ, hδ⟩ := stack_viable wf hb h q rest s rfl hs (it.rule, it.dot) ⟨it, hit, rfl, rfl⟩
  have hdecl := rewrites_declared wf hδ (by
    intro s hs
    simp at hs; subst hs
    obtain ⟨A, h1, h2⟩ := wf.entry_declared
    rw [h1]; exact List.mem_append_right _ h2)
  obtain ⟨v, hv⟩ := derives_some wf hp (strip ((ruleRhs g it.rule).drop it.dot) ++ δ) (fun s hs => hdecl s (by
    simp only [List.mem_append] at hs ⊢; tauto))
  refine ⟨v, rewrites_derives hδ ?_⟩
  rw [List.append_assoc]
  exact (forest_derives (stackOk_forest h)).append hv

/-- non-terminals of items in the entry state: the entry symbol's left corners -/
theorem start_leftCorner {E : Nat} (hE : g.entry = .nt E) {it : Item} (h : Closure g (entryItem kind) it) : ∀ (i : Nat) (r : Rule), it.rule = some i → g.rules[i]? = some r →
    it.dot = leadingEps r.rhs ∧ (r.lhs = E ∨ LeftCorner g E r.lhs) := by
  induction h with
  | self => intro i r h; simp [entryItem] at h
  | @step a b hcl hs ih =>
    intro i r hr hi
    obtain ⟨A, j, r', x, h1, h2, rfl, h4, rfl⟩ := hs
    simp at hr; subst hr
    rw [hi] at h2; simp at h2; subst h2
    refine ⟨rfl, ?_⟩
    cases har : a.rule with
    | none =>
      have : a = entryItem kind := by
        cases hcl with
        | self => rfl
        | step _ hs => obtain ⟨_, _, _, _, _, _, _, _, rfl⟩ := hs; simp at har
      subst this
      simp [Item.after, entryItem, ruleRhs, hE] at h1
      exact .inl h1.symm
    | some k =>
      unfold Item.after at h1
      simp only [har, ruleRhs] at h1
      cases hk : g.rules[k]? with
      | none => simp [hk] at h1
      | some rk =>
        simp only [hk, Option.map_some, Option.getD_some] at h1
        obtain ⟨h5, h6⟩ := ih k rk har hk
        rw [h5] at h1
        have hst : StartsRule g rk.lhs r.lhs := ⟨rk, List.mem_of_getElem? hk, rfl, h1⟩
        rcases h6 with h6 | h6
        · rw [← h6]; exact .inr (.one hst)
        · exact .inr (.more h6 hst)

/-- in the entry state only the entry item has the entry symbol after the dot -/
theorem start_entry_only {E : Nat} (hE : g.entry = .nt E) (hl : EntryNotLeftRecursive g) {it : Item} (h : Closure g (entryItem kind) it)
    (ha : it.after g = some (.nt E)) : it = entryItem kind := by
  cases hr : it.rule with
  | none =>
    cases h with
    | self => rfl
    | step _ hs => obtain ⟨_, _, _, _, _, _, _, _, rfl⟩ := hs; simp at hr
  | some i =>
    exfalso
    unfold Item.after at ha
    simp only [hr, ruleRhs] at ha
    cases hi : g.rules[i]? with
    | none => simp [hi] at ha
    | some r =>
      simp only [hi, Option.map_some, Option.getD_some] at ha
      obtain ⟨h1, h2⟩ := start_leftCorner hE h i r hr hi
      rw [h1] at ha
      have hst : StartsRule g r.lhs E := ⟨r, List.mem_of_getElem? hi, rfl, ha⟩
      rcases h2 with h2 | h2
      · exact hl E hE (.one (by rw [h2] at hst; exact hst))
      · exact hl E hE (.more h2 hst)

/-- the LR(1) item a completed item started as, with its lookahead -/
theorem stack_back_la (hv : LoopInv g kind gr []) (hk : kind.isLalr = false) {stk : List StackSym} {ts : List (PTree T)} (h : StackOk g gr stk ts) :
    ∀ (q : Nat) (rest : List StackSym) (s : List Item) (i : Nat) (r : Rule) (d : Nat) (la : Option Sym), stk = .state q :: rest → gr.sets[q]? = some s →
      g.rules[i]? = some r → (⟨some i, d, la⟩ : Item) ∈ s → ∃ p rest' s', stk.drop (2 * (d - leadingEps r.rhs)) = .state p :: rest' ∧
        gr.sets[p]? = some s' ∧ (⟨some i, leadingEps r.rhs, la⟩ : Item) ∈ s' := by
  induction h with
  | base =>
    intro q rest s i r d la hq hs hi hc
    have hP := stack_back hv (StackOk.base (T := T)) q rest s i r d hq hs hi ⟨_, hc, rfl, rfl⟩
    have hge := hv.lead hs hi ⟨_, hc, rfl, rfl⟩
    have h0 := hP.tlen
    simp at h0
    have hd : d = leadingEps r.rhs := by omega
    subst hd
    exact ⟨q, rest, s, by simpa using hq, hs, hc⟩
  | @push q0 q' rest0 ts0 x X t hst he hx ht ih =>
    intro q rest s i r d la hq hs hi hc
    simp at hq
    obtain ⟨rfl, rfl⟩ := hq
    have hge := hv.lead hs hi ⟨_, hc, rfl, rfl⟩
    rcases Nat.eq_or_lt_of_le hge with hd | hd
    · subst hd
      exact ⟨q', _, s, by simp; rfl, hs, hc⟩
    · obtain ⟨s0, hs0⟩ := edge_src hv.base he
      have hb := item_back hv hk he hs hs0 hi hc hd
      obtain ⟨p, rest', s', h1, h2, h3⟩ := ih q0 rest0 s0 i r (d - 1) la rfl hs0 hi hb
      have hk : d - leadingEps r.rhs = (d - 1 - leadingEps r.rhs) + 1 := by omega
      refine ⟨p, rest', s', ?_, h2, h3⟩
      rw [hk, Nat.mul_add]; simpa using h1

variable {m : LRMachine} {input : Nat → Tok × T}

/-- an LR(1) parser accepts only at the end of file -/
theorem lrStep_accept (wf : g.WF) (hv : LoopInv g .lr1 gr []) (hm : Follows g gr m) (hl : EntryNotLeftRecursive g) {q : Nat} {rest : List StackSym} {ts : List (PTree T)}
    {pos pos' : Nat} {ev : LREvent T} (h : StackOk g gr (.state q :: rest) ts) (hn : lrStep m input (.state q :: rest) pos = .next [] pos' ev) :
    pos' = pos ∧ (input pos).1 = .eof := by
  obtain ⟨s, hs⟩ := h.range hv.base
  have hq := getElem?_lt hs
  cases hact : m.nextAction q (input pos).1 with
  | panic => exact absurd hact (hm.noPanic q _ hq)
  | unexpected exp => rw [lrStep_unexpected hact] at hn; cases hn
  | act a =>
    cases a with
    | shift =>
      obtain ⟨a, q', h1, h2, h3⟩ := hm.shift q _ hq hact
      rw [lrStep_shift hact] at hn
      simp [lrGoto, h3] at hn
    | reduce i =>
      obtain ⟨s1, it, x, h1, h2, h3, h4, h5, h6⟩ := hm.reduce q _ i hq hact
      obtain ⟨r, hi, hrm, hlen, hdot, hk, p, rest', cs, ts', s', hdrop, hts, hst, hf, hs', hcore⟩ := reduce_stack hv h h1 h2 h3 h4
      have hred : m.reduction i = some ((strip r.rhs).length, r.lhs) := by rw [hm.red, hi]; rfl
      rw [lrStep_reduce hact hred hlen, hdrop] at hn
      have hp0 : p = 0 ∧ g.entry = .nt r.lhs := by
        by_contra he
        rcases goto_exists hv hs' hi hcore with he' | ⟨q', he'⟩
        · exact he he'
        · simp [lrGoto, hm.goto p _ q' he' he] at hn
      obtain ⟨rfl, hE⟩ := hp0
      simp only [lrGoto, hm.accept _ hE, LRStep.next.injEq] at hn
      refine ⟨hn.2.1.symm, ?_⟩
      have hit : (⟨some i, r.rhs.length, it.la⟩ : Item) ∈ s1 := by
        have : it = ⟨some i, r.rhs.length, it.la⟩ := by cases it; simp_all
        rw [← this]; exact h2
      obtain ⟨p', rest'', s'', e1, e2, e3⟩ := stack_back_la hv rfl h q rest s1 i r r.rhs.length it.la rfl h1 hi hit
      rw [← hk, hdrop] at e1
      simp at e1
      obtain ⟨rfl, rfl⟩ := e1
      obtain ⟨s0, hs0, hcl⟩ := hv.base.start
      rw [e2] at hs0; simp at hs0; subst hs0
      have hcl' := (hcl _).mp e3
      rcases closure_cases hcl' with he | ⟨par, j, r', hpar, hpa, hj, hj1, _, hex⟩
      · simp [entryItem] at he
      · simp at hj1; subst hj1
        rw [hi] at hj; simp at hj; subst hj
        have := start_entry_only hE hl hpar hpa
        subst this
        simp only [ExpandsWith, entryItem, LRKind.endLa, ruleRhs] at hex
        obtain ⟨b, hb1, hb2, β, hb3⟩ := hex
        have hb : b = .eof := by
          have e : strip (List.drop (0 + 1) [g.entry] ++ [Sym.eof]) = [Sym.eof] := by simp [strip]
          rw [e] at hb3
          have gen : ∀ y, Rewrites g.rules [Sym.eof] y → y = [Sym.eof] := by
            intro y hy
            induction hy with
            | refl => rfl
            | @step α β' r0 _ _ ih =>
              cases α with
              | nil => simp at ih
              | cons c α => simp at ih
          have := gen _ hb3
          simp at this
          exact this.1
        subst hb
        rw [hb1] at h6
        simp only [LaMatch] at h6
        subst h6
        cases htk : (input pos).1 with
        | tok a => rw [htk] at h5; simp [Tok.sym] at h5
        | eof => rfl
        | err => rw [htk] at h5; simp [Tok.sym] at h5

theorem lrRun_eof (wf : g.WF) (hv : LoopInv g .lr1 gr []) (hm : Follows g gr m) (hl : EntryNotLeftRecursive g) :
    ∀ (fuel : Nat) (stk : List StackSym) (pos : Nat) (events : List (LREvent T)) (ev' : List (LREvent T)) (pos' : Nat),
    RunInv g gr input stk pos events → (stk = [] → (input pos).1 = .eof) → lrRun m input fuel stk pos events = .ok ev' pos' → (input pos').1 = .eof := by
  intro fuel
  induction fuel with
  | zero => intro stk pos events ev' pos' _ _ h; simp [lrRun] at h
  | succ fuel ih =>
    intro stk pos events ev' pos' hinv h0 h
    unfold lrRun at h
    rcases hinv with ⟨ts, h1, h2⟩ | ⟨rfl, t, h1, h2⟩
    · obtain ⟨q, rest, rfl⟩ := h1.head
      rcases lrStep_sound hv hm h1 h2 with ⟨exp, he, _⟩ | ⟨stk', pos1, ev, he, hinv⟩
      · simp [he] at h
      · simp only [he] at h
        refine ih stk' pos1 _ ev' pos' hinv (fun hnil => ?_) h
        subst hnil
        obtain ⟨e1, e2⟩ := lrStep_accept wf hv hm hl h1 he
        rw [e1]; exact e2
    · simp [lrStep] at h
      rw [← h.2]; exact h0 rfl

end Verif
