import Verif.Spec.Lexing
import Verif.Proofs.Precedence

/-! What the generated lexer tables guarantee. -/

set_option autoImplicit false

namespace Verif

theorem resolvePrecedence_hasPrec {rules : List TokenRule} {js : List Nat} {x : Except PrecedenceError Nat}
    (h : resolvePrecedence rules js = .ok x) : ∀ j ∈ js, ∃ p, HasPrec rules j p := by
  unfold resolvePrecedence at h
  cases hl : withPrecedence rules js with
  | none => rw [hl] at h; cases h
  | some l =>
    clear h
    induction js generalizing l with
    | nil => simp
    | cons j js ih =>
      unfold withPrecedence at hl
      split at hl
      · rename_i p l' h1 h2
        intro x hx
        rcases List.mem_cons.mp hx with rfl | hx
        · cases hr : rules[x]? with
          | none => rw [hr] at h1; cases h1
          | some r => rw [hr] at h1; exact ⟨p, r, hr, h1⟩
        · exact ih l' h2 x hx
      · cases hl

theorem applyPrecedenceStates_hasPrec {rules : List TokenRule} (states : List (AutomatonState (List Nat))) :
    ∀ {i : Nat} {d m r}, applyPrecedenceStates rules i states d m = .ok (.ok r) →
      ∀ js, .accepting js ∈ states → ∀ j ∈ js, ∃ p, HasPrec rules j p := by
  induction states with
  | nil => intro i d m r _ js h; cases h
  | cons st states ih =>
    intro i d m r h js hjs
    cases st with
    | accepting js' =>
      simp only [applyPrecedenceStates] at h
      split at h
      · cases h
      · cases h
      · rename_i rule hrule
        rcases List.mem_cons.mp hjs with he | hjs
        · cases he
          exact resolvePrecedence_hasPrec hrule
        · exact ih h js hjs
    | intermediate k =>
      simp only [applyPrecedenceStates] at h
      rcases List.mem_cons.mp hjs with he | hjs
      · cases he
      · exact ih h js hjs

theorem applyPrecedence_hasPrec {rules : List TokenRule} {d : Dfa (List Nat) Nat} {d' : Dfa Nat Nat}
    (h : applyPrecedenceToDfa rules d = .ok (.ok d')) :
    ∀ js, .accepting js ∈ d.graph.nodes → ∀ j ∈ js, ∃ p, HasPrec rules j p := by
  unfold applyPrecedenceToDfa at h
  split at h
  · cases h
  · cases h
  · rename_i r m hr
    exact applyPrecedenceStates_hasPrec _ hr

/-- the accept lists of the subset automaton of the generated NFA have no duplicates -/
theorem acceptsOf_nodup {nfa : LexNfa} (hu : ∀ q q' j : Nat, nfa.graph.nodes[q]? = some (.accepting j) → nfa.graph.nodes[q']? = some (.accepting j) → q = q')
    {set : List Nat} (hs : set.Nodup) : (nfa.acceptsOf set).Nodup := by
  induction set with
  | nil => simp [Nfa.acceptsOf]
  | cons x set ih =>
    obtain ⟨h1, h2⟩ := List.nodup_cons.mp hs
    have ih := ih h2
    have cons : nfa.acceptsOf (x :: set) = (match nfa.graph.nodes[x]? with | some (.accepting s) => [s] | _ => []) ++ nfa.acceptsOf set := by
      simp only [Nfa.acceptsOf, List.filterMap_cons]
      rcases nfa.graph.nodes[x]? with _ | (s | k) <;> rfl
    rw [cons]
    rcases hx : nfa.graph.nodes[x]? with _ | (s | k)
    · simpa using ih
    · simp only [List.cons_append, List.nil_append, List.nodup_cons]
      refine ⟨?_, ih⟩
      intro hmem
      obtain ⟨y, hy, hy'⟩ := mem_acceptsOf.mp hmem
      have := hu x y s hx hy'
      subst this
      exact h1 hy
    · simpa using ih

/-- the interface of the generated tables -/
structure TablesOk (rules : List TokenRule) (t : LexerTables) : Prop where
  alpha : t.alphabet = generateAlphabet rules
  pos : 0 < t.dfa.graph.nodes.length
  wf : ∀ e ∈ t.dfa.graph.edges, e.src < t.dfa.graph.nodes.length ∧ e.dst < t.dfa.graph.nodes.length
  det : ∀ q, ((t.dfa.transitionsFrom q).map (·.1)).Nodup
  accepting : ∀ {w : List Char} {q j : Nat}, t.dfa.Path 0 (w.map (classOf t.alphabet)) q → t.dfa.graph.nodes[q]? = some (.accepting j) →
    ∃ r p, rules[j]? = some r ∧ r.Matches w ∧ r.prec = some p ∧
    ∀ (j' : Nat) (r' : TokenRule), rules[j']? = some r' → r'.Live w → j' ≠ j → ∃ p', r'.prec = some p' ∧ p' < p
  inter : ∀ {w : List Char} {q k : Nat}, t.dfa.Path 0 (w.map (classOf t.alphabet)) q → t.dfa.graph.nodes[q]? = some (.intermediate k) →
    ∀ r ∈ rules, ¬ r.Live w
  once : ∀ {ws : List Nat}, t.dfa.Path 0 ws 0 → ws = []
  run : ∀ {w u : List Char} {r : TokenRule}, r ∈ rules → r.Live (w ++ u) → ∃ q, t.dfa.Path 0 (w.map (classOf t.alphabet)) q
  co : (∀ r ∈ rules, r.NoEmptySeq ∧ r.Useful) → ∀ {w : List Char} {q : Nat}, t.dfa.Path 0 (w.map (classOf t.alphabet)) q →
    w = [] ∨ Viable rules w

theorem Dfa.Path.mono {σ σ' τ : Type} {d : Dfa σ τ} {d' : Dfa σ' τ} (h : ∀ e ∈ d.graph.edges, e ∈ d'.graph.edges) {q q' : Nat} {w : List τ}
    (hp : d.Path q w q') : d'.Path q w q' := by
  induction hp with
  | refl q => exact .refl q
  | step he _ ih => exact .step (h _ he) ih

theorem forall2_get {α β : Type} {R : α → β → Prop} {l1 : List α} {l2 : List β} (h : List.Forall₂ R l1 l2) {i : Nat} {x : α}
    (hx : l1[i]? = some x) : ∃ y, l2[i]? = some y ∧ R x y := by
  induction h generalizing i with
  | nil => simp at hx
  | cons hr _ ih =>
    cases i with
    | zero => simp at hx; subst hx; exact ⟨_, rfl, hr⟩
    | succ i => simpa using ih (by simpa using hx)

theorem forall2_get' {α β : Type} {R : α → β → Prop} {l1 : List α} {l2 : List β} (h : List.Forall₂ R l1 l2) {i : Nat} {y : β}
    (hy : l2[i]? = some y) : ∃ x, l1[i]? = some x ∧ R x y := by
  induction h generalizing i with
  | nil => simp at hy
  | cons hr _ ih =>
    cases i with
    | zero => simp at hy; subst hy; exact ⟨_, rfl, hr⟩
    | succ i => simpa using ih (by simpa using hy)

theorem Nfa.Path.split {σ τ : Type} {a : Nfa σ τ} {q q' : Nat} {w : List τ} (h : a.Path q w q') :
    ∀ {u v : List τ}, w = u ++ v → ∃ m, a.Path q u m ∧ a.Path m v q' := by
  induction h with
  | refl q =>
    intro u v hw
    have : u = [] ∧ v = [] := by simpa using hw.symm
    rw [this.1, this.2]
    exact ⟨q, .refl q, .refl q⟩
  | eps he _ ih =>
    intro u v hw
    obtain ⟨m, h1, h2⟩ := ih hw
    exact ⟨m, .eps he h1, h2⟩
  | @step q q1 q2 t w he hp ih =>
    intro u v hw
    cases u with
    | nil =>
      simp only [List.nil_append] at hw
      subst hw
      exact ⟨q, .refl q, .step he hp⟩
    | cons a u =>
      simp only [List.cons_append, List.cons.injEq] at hw
      obtain ⟨rfl, hw⟩ := hw
      obtain ⟨m, h1, h2⟩ := ih hw
      exact ⟨m, .step he h1, h2⟩

theorem no_path_into_zero {nfa : LexNfa} (h : ∀ ed ∈ nfa.graph.edges, ed.dst ≠ 0) {q q' : Nat} {w : List Nat} (hp : nfa.Path q w q')
    (h0 : q' = 0) : q = 0 ∧ w = [] := by
  induction hp with
  | refl q => exact ⟨h0, rfl⟩
  | eps he _ ih => exact absurd (ih h0).1 (h _ he)
  | step he _ ih => exact absurd (ih h0).1 (h _ he)

theorem path_lt {nfa : LexNfa} (hw : nfa.WF) {q q' : Nat} {w : List Nat} (hp : nfa.Path q w q') (hq : q < nfa.graph.nodes.length) :
    q' < nfa.graph.nodes.length := by
  induction hp with
  | refl q => exact hq
  | eps he _ ih => exact ih (hw _ he).2
  | step he _ ih => exact ih (hw _ he).2

theorem generateLexer_ok {fuel : Nat} {rules : List TokenRule} {t : LexerTables} (h : generateLexer fuel rules = .ok (.ok t)) :
    TablesOk rules t := by
  unfold generateLexer at h
  obtain ⟨⟨start, nfa⟩, h1, h⟩ := res_bind_ok.mp h
  obtain ⟨d, h2, h⟩ := res_bind_ok.mp h
  obtain ⟨x, h3, h⟩ := res_bind_ok.mp h
  cases x with
  | error e => cases h
  | ok d' =>
    cases h
    obtain ⟨n1, n2, n3, n4, n5, n6, n7⟩ := generateNfa_ok h1
    subst n1
    have nu := generateNfa_unique h1
    obtain ⟨nt1, nt2⟩ := generateNfa_trim h1
    obtain ⟨S, hS⟩ := powersetConstruction_ok nfa n3 h2
    have hacc : ∀ st ∈ d.graph.nodes, AcceptOk rules st := by
      intro st hst js hjs
      subst hjs
      obtain ⟨m, hm, hmm⟩ := List.getElem_of_mem hst
      obtain ⟨wt, hwt, hl⟩ := hS.label m hm
      have e : wt = .accepting js := by
        have := List.getElem?_eq_getElem hm
        rw [hwt, hmm] at this
        exact Option.some.inj this
      subst e
      rcases hl with ⟨hne, he⟩ | ⟨_, k, he⟩
      · cases he
        refine ⟨hne, ?_, applyPrecedence_hasPrec h3 _ hst⟩
        apply acceptsOf_nodup nu
        obtain ⟨l, hl⟩ := hS.clos m hm
        rw [hl]
        exact (clo_sorted nfa n3 l).nodup
      · cases he
    rcases applyPrecedence_spec hS.wf hacc with ⟨d'', g1, g2, g3⟩ | ⟨e, g1, _⟩
    · rw [h3] at g1
      cases g1
      have hedge : ∀ e, e ∈ d'.graph.edges ↔ e ∈ d.graph.edges := fun e => by rw [g3, mem_flat_edges hS.wf]
      have hlen : d'.graph.nodes.length = d.graph.nodes.length := g2.length_eq.symm
      have hpath : ∀ {ws q}, d'.Path 0 ws q → d.Path 0 ws q := fun hp => hp.mono (fun e he => (hedge e).mp he)
      have hpath' : ∀ {ws q}, d.Path 0 ws q → d'.Path 0 ws q := fun hp => hp.mono (fun e he => (hedge e).mpr he)
      have hset : ∀ {ws : List Nat} {q : Nat}, d.Path 0 ws q → q < d.graph.nodes.length ∧ ∀ x, x ∈ S q ↔ nfa.Path 0 ws x := by
        intro ws q hq
        obtain ⟨k1, k2⟩ := hS.run n3 hq hS.pos
        exact ⟨k1, fun x => by rw [k2, hS.start_mem n3]⟩
      refine { alpha := rfl, pos := by simp only; rw [hlen]; exact hS.pos, wf := ?_, det := ?_, accepting := ?_, inter := ?_,
               once := ?_, run := ?_, co := ?_ }
      · intro e he
        simp only at he ⊢
        rw [hlen]
        exact hS.wf e ((hedge e).mp he)
      · intro q
        simp only
        by_cases hq : q < d.graph.nodes.length
        · have : d'.transitionsFrom q = (d.transitionsFrom q).reverse := by
            have e1 : d'.graph.edgesFrom q = (d.graph.edgesFrom q).reverse := by
              show (d'.graph.edges.filter _).reverse = _
              rw [g3, filter_flat_edges hq]
            simp only [Dfa.transitionsFrom, e1, List.map_reverse]
          rw [this, List.map_reverse]
          exact (List.reverse_perm _).nodup_iff.mpr (hS.weights_nodup q)
        · have : d'.transitionsFrom q = [] := by
            simp only [Dfa.transitionsFrom, Graph.edgesFrom, List.map_eq_nil_iff, List.reverse_eq_nil_iff, List.filter_eq_nil_iff]
            intro e he
            have := (hS.wf e ((hedge e).mp he)).1
            simp; omega
          rw [this]; simp
      · intro w q j hp hq
        simp only at hp hq
        obtain ⟨k1, k2⟩ := hset (hpath hp)
        obtain ⟨st, hst, hrel⟩ := forall2_get' g2 hq
        cases st with
        | intermediate k => simp [LabelRel] at hrel
        | accepting js =>
          obtain ⟨wt, hwt, hl⟩ := hS.label q k1
          rw [hst] at hwt
          cases hwt
          rcases hl with ⟨hne, he⟩ | ⟨_, k, he⟩
          · cases he
            obtain ⟨b1, p, ⟨r, hr, hp'⟩, b2⟩ := hrel
            obtain ⟨x, hx, hx'⟩ := mem_acceptsOf.mp b1
            obtain ⟨r', hr', hm⟩ := n5 x j w hx' ((k2 x).mp hx)
            rw [hr] at hr'
            cases hr'
            refine ⟨r, p, hr, hm, hp', ?_⟩
            intro j' r' hr' hl' hne'
            obtain ⟨x', hx1, hx2⟩ := n6 j' r' hr'
            have : j' ∈ nfa.acceptsOf (S q) := mem_acceptsOf.mpr ⟨x', (k2 x').mpr (hx2 w hl'), hx1⟩
            obtain ⟨p', ⟨r'', e1, e2⟩, e3⟩ := b2 j' this hne'
            rw [hr'] at e1
            cases e1
            exact ⟨p', e2, e3⟩
          · cases he
      · intro w q k hp hq r hr hl'
        simp only at hp hq
        obtain ⟨k1, k2⟩ := hset (hpath hp)
        obtain ⟨st, hst, hrel⟩ := forall2_get' g2 hq
        cases st with
        | accepting js => simp [LabelRel] at hrel
        | intermediate k' =>
          obtain ⟨wt, hwt, hl⟩ := hS.label q k1
          rw [hst] at hwt
          cases hwt
          rcases hl with ⟨hne, he⟩ | ⟨hem, _⟩
          · cases he
          · obtain ⟨j, hj⟩ := List.getElem?_of_mem hr
            obtain ⟨x', hx1, hx2⟩ := n6 j r hj
            have : j ∈ nfa.acceptsOf (S q) := mem_acceptsOf.mpr ⟨x', (k2 x').mpr (hx2 w hl'), hx1⟩
            rw [hem] at this
            cases this
      · intro ws hp
        have hp := hpath hp
        obtain ⟨k1, k2⟩ := hset hp
        obtain ⟨_, k3⟩ := hset (Dfa.Path.refl (d := d) 0)
        have : 0 ∈ S 0 := (k3 0).mpr (.refl 0)
        exact (no_path_into_zero nt1 ((k2 0).mp this) rfl).2
      · intro w u r hr hl
        obtain ⟨j, hj⟩ := List.getElem?_of_mem hr
        obtain ⟨x', hx1, hx2⟩ := n6 j r hj
        have hp := hx2 _ hl
        rw [List.map_append] at hp
        obtain ⟨m, hm, _⟩ := hp.split rfl
        obtain ⟨y, hy, hy'⟩ := (hS.start_mem n3 _ m).mpr hm
        obtain ⟨q, hq⟩ := hS.run_exists n3 hS.pos hy hy'
        exact ⟨q, hpath' hq⟩
      · intro hu w q hp
        simp only at hp
        obtain ⟨k1, k2⟩ := hset (hpath hp)
        -- the set of a reached state is not empty
        have hne : ∃ x, x ∈ S q := by
          have gen : ∀ m ws q, d.Path m ws q → m < d.graph.nodes.length → (∃ x, x ∈ S m) → ∃ x, x ∈ S q := by
            clear hp k1 k2
            intro m ws q hp
            induction hp with
            | refl q => exact fun _ h => h
            | @step q q' q'' t w he _ ih =>
              intro hm _
              refine ih (hS.wf _ he).2 ?_
              obtain ⟨p, hp, r1, r2, r3⟩ := forall2_mem_left (hS.edges q hm) (x := ⟨q, q', t⟩) (by simp [outs, he])
              obtain ⟨t1, t2, _⟩ := targetMultiMap_spec nfa (S q)
              have hne := t2 p (List.mem_reverse.mp hp)
              obtain ⟨y, ys, hy⟩ := List.exists_cons_of_ne_nil hne
              refine ⟨y, ?_⟩
              simp only at r3
              rw [r3, mem_clo nfa n3]
              exact ⟨y, by simp [hy], .refl y⟩
          refine gen 0 _ q (hpath hp) hS.pos ⟨0, ?_⟩
          rw [hS.start, mem_clo nfa n3]
          exact ⟨0, by simp, .refl _⟩
        obtain ⟨x, hx⟩ := hne
        have hx := (k2 x).mp hx
        by_cases hx0 : x = 0
        · left
          have := (no_path_into_zero nt1 hx hx0).2
          simpa using this
        · right
          obtain ⟨u, y, j, hy, hpy⟩ := nt2 hu x (by omega) (path_lt n3 hx n2)
          have := hx.trans hpy
          rw [← List.map_append] at this
          obtain ⟨r, hr, hm⟩ := n5 y j _ hy this
          exact ⟨u, r, List.mem_of_getElem? hr, hm⟩
    · rw [h3] at g1
      cases g1

end Verif

namespace Verif

/-- the pieces of a run of the pipeline up to the subset automaton -/
theorem pipeline_accepts {fuel : Nat} {rules : List TokenRule} {nfa : LexNfa} {start : Nat} {d : Dfa (List Nat) Nat}
    (h1 : generateNfa (generateAlphabet rules) rules = .ok (start, nfa)) (h2 : nfa.powersetConstruction fuel start = .ok d)
    (hprec : ∀ r ∈ rules, ∃ p, r.prec = some p) :
    (∀ e ∈ d.graph.edges, e.src < d.graph.nodes.length ∧ e.dst < d.graph.nodes.length) ∧
    (∀ st ∈ d.graph.nodes, AcceptOk rules st) ∧
    ∀ js, .accepting js ∈ d.graph.nodes → ∃ ws : List Nat, (∃ x, nfa.Path 0 ws x) ∧
      ∀ j, j ∈ js ↔ ∃ x, nfa.graph.nodes[x]? = some (.accepting j) ∧ nfa.Path 0 ws x := by
  obtain ⟨n1, n2, n3, n4, n5, n6, n7⟩ := generateNfa_ok h1
  subst n1
  have nu := generateNfa_unique h1
  obtain ⟨S, hS⟩ := powersetConstruction_ok nfa n3 h2
  have lab : ∀ js, .accepting js ∈ d.graph.nodes → ∃ m, m < d.graph.nodes.length ∧ js ≠ [] ∧ js = nfa.acceptsOf (S m) := by
    intro js hst
    obtain ⟨m, hm, hmm⟩ := List.getElem_of_mem hst
    obtain ⟨wt, hwt, hl⟩ := hS.label m hm
    have e : wt = .accepting js := by
      have := List.getElem?_eq_getElem hm
      rw [hwt, hmm] at this
      exact Option.some.inj this
    subst e
    rcases hl with ⟨hne, he⟩ | ⟨_, k, he⟩
    · cases he; exact ⟨m, hm, hne, rfl⟩
    · cases he
  refine ⟨hS.wf, ?_, ?_⟩
  · intro st hst js hjs
    subst hjs
    obtain ⟨m, hm, hne, rfl⟩ := lab js hst
    refine ⟨hne, ?_, ?_⟩
    · apply acceptsOf_nodup nu
      obtain ⟨l, hl⟩ := hS.clos m hm
      rw [hl]
      exact (clo_sorted nfa n3 l).nodup
    · intro j hj
      obtain ⟨x, _, hx⟩ := mem_acceptsOf.mp hj
      have hlt := n7 x j hx
      obtain ⟨p, hp⟩ := hprec rules[j] (List.getElem_mem hlt)
      exact ⟨p, rules[j], List.getElem?_eq_getElem hlt, hp⟩
  · intro js hst
    obtain ⟨m, hm, hne, rfl⟩ := lab js hst
    obtain ⟨ws, hws⟩ := greach_path (hS.reach m hm)
    obtain ⟨k1, k2⟩ := hS.run n3 hws hS.pos
    have k2 : ∀ x, x ∈ S m ↔ nfa.Path 0 ws x := fun x => by rw [k2, hS.start_mem n3]
    refine ⟨ws, ?_, ?_⟩
    · obtain ⟨j, js, hj⟩ := List.exists_cons_of_ne_nil hne
      have : j ∈ nfa.acceptsOf (S m) := by rw [hj]; simp
      obtain ⟨x, hx, _⟩ := mem_acceptsOf.mp this
      exact ⟨x, (k2 x).mp hx⟩
    · intro j
      rw [mem_acceptsOf]
      constructor
      · rintro ⟨x, a, b⟩; exact ⟨x, b, (k2 x).mp a⟩
      · rintro ⟨x, a, b⟩; exact ⟨x, (k2 x).mpr b, a⟩

/-- the pipeline ends with tables or a precedence error -/
theorem generateLexer_total {rules : List TokenRule} (ht : ¬ ∃ r ∈ rules, r.HasTightCount) (hprec : ∀ r ∈ rules, ∃ p, r.prec = some p) :
    ∃ fuel0, ∀ fuel, fuel0 ≤ fuel → ∃ x, generateLexer fuel rules = .ok x := by
  have hg := generateAlphabet_good rules
  obtain ⟨n, hn⟩ := (generateNfaLoop_total hg 0 rules).2 0 ({} : LexNfa).addIntermediateState.1 ht
  have h1 : generateNfa (generateAlphabet rules) rules = .ok (0, n) := congrArg (· >>= fun n => Except.ok (0, n)) hn
  obtain ⟨_, n2, n3, _⟩ := generateNfa_ok h1
  obtain ⟨f0, hf⟩ := powersetConstruction_total n n3 n2
  refine ⟨f0, fun fuel hfuel => ?_⟩
  obtain ⟨d, h2⟩ := hf fuel hfuel
  obtain ⟨a1, a2, _⟩ := pipeline_accepts h1 h2 hprec
  have : ∀ y, applyPrecedenceToDfa rules d = .ok y → ∃ x, generateLexer fuel rules = .ok x := by
    intro y hy
    cases y with
    | error e => exact ⟨.error e, res_bind_ok.mpr ⟨_, h1, res_bind_ok.mpr ⟨_, h2, res_bind_ok.mpr ⟨_, hy, rfl⟩⟩⟩⟩
    | ok d' => exact ⟨.ok ⟨_, d'⟩, res_bind_ok.mpr ⟨_, h1, res_bind_ok.mpr ⟨_, h2, res_bind_ok.mpr ⟨_, hy, rfl⟩⟩⟩⟩
  rcases applyPrecedence_spec a1 a2 with ⟨d', g1, _⟩ | ⟨e, g1, _⟩
  · exact this _ g1
  · exact this _ g1

theorem generateLexer_error {fuel : Nat} {rules : List TokenRule} {e : PrecedenceError} (h : generateLexer fuel rules = .ok (.error e))
    (hprec : ∀ r ∈ rules, ∃ p, r.prec = some p) :
    ∃ nfa js, ∃ ws : List Nat, generateNfa (generateAlphabet rules) rules = .ok (0, nfa) ∧ IsTie rules js e ∧ (∃ x, nfa.Path 0 ws x) ∧
      ∀ j, j ∈ js ↔ ∃ x, nfa.graph.nodes[x]? = some (.accepting j) ∧ nfa.Path 0 ws x := by
  unfold generateLexer at h
  obtain ⟨⟨start, nfa⟩, h1, h⟩ := res_bind_ok.mp h
  obtain ⟨d, h2, h⟩ := res_bind_ok.mp h
  obtain ⟨x, h3, h⟩ := res_bind_ok.mp h
  have hs := (generateNfa_ok h1).1
  subst hs
  cases x with
  | ok d' => cases h
  | error e' =>
    cases h
    obtain ⟨a1, a2, a3⟩ := pipeline_accepts h1 h2 hprec
    rcases applyPrecedence_spec a1 a2 with ⟨d', g1, _⟩ | ⟨e', g1, js, g2, g3⟩
    · rw [h3] at g1; cases g1
    · rw [h3] at g1
      cases g1
      obtain ⟨ws, b1, b2⟩ := a3 js g2
      exact ⟨nfa, js, ws, h1, g3, b1, b2⟩

end Verif
