import Verif.Proofs.GlrError

/-! # Canonical LR(1): lookaheads are exact, so parsers stop and report exact expected tokens -/

set_option autoImplicit false

namespace Verif

variable {T : Type} {g : Grammar} {kind : LRKind} {gr : LRGraph}

/-- the item can be used here: the symbols before it, what is after its dot, and its lookahead start a sentential form -/
def UsableAt (g : Grammar) (α : List Sym) (it : Item) : Prop :=
  ∃ (a : Sym) (δ : List Sym), it.la = some a ∧ a.isTerm ∧ Rewrites g.rules [g.entry, .eof] (α ++ strip ((ruleRhs g it.rule).drop it.dot) ++ a :: δ)

theorem usable_closure {α : List Sym} {it it' : Item} (hc : UsableAt g α it) (h : Closure g it it') : UsableAt g α it' := by
  induction h with
  | self => exact hc
  | @step a b _ hs ih =>
    obtain ⟨A, i, r, x, h1, h2, rfl, h4, rfl⟩ := hs
    obtain ⟨l, δ, h5, h6, h7⟩ := ih
    unfold ExpandsWith at h4
    rw [h5] at h4
    obtain ⟨b, rfl, hb, β, hβ⟩ := h4
    unfold Item.after at h1
    rw [lr_drop_of_get h1, strip_cons (by simp)] at h7
    have hl : l ≠ .eps := by rintro rfl; exact h6
    have e1 : strip ((ruleRhs g a.rule).drop (a.dot + 1) ++ [l]) = strip ((ruleRhs g a.rule).drop (a.dot + 1)) ++ [l] := by simp [strip, hl]
    rw [e1] at hβ
    have h8 := hβ.ctx (α ++ [.nt r.lhs]) δ
    have h9 : Rewrites g.rules [g.entry, .eof] (α ++ .nt r.lhs :: (b :: β ++ δ)) := Rewrites.trans (by simpa using h7) (by simpa using h8)
    have h10 := Rewrites.step h9 (List.mem_of_getElem? h2)
    rw [strip_lead] at h10
    refine ⟨b, β ++ δ, rfl, hb, ?_⟩
    simp only [ruleRhs, h2, Option.map_some, Option.getD_some]
    simpa using h10

theorem stack_usable (wf : g.WF) (hb : Base g .lr1 gr) {stk : List StackSym} {ts : List (PTree T)} (h : StackOk g gr stk ts) :
    ∀ (q : Nat) (rest : List StackSym) (s : List Item), stk = .state q :: rest → gr.sets[q]? = some s → ∀ it ∈ s, UsableAt g (ts.reverse.map PTree.root) it := by
  induction h with
  | base =>
    rintro q rest s hq hs it hit
    simp at hq
    obtain ⟨rfl, rfl⟩ := hq
    obtain ⟨s', hs', hcl⟩ := hb.start
    rw [hs] at hs'; simp at hs'; subst hs'
    refine usable_closure ?_ ((hcl it).mp hit)
    obtain ⟨A, hA, _⟩ := wf.entry_declared
    refine ⟨.eof, [], rfl, trivial, ?_⟩
    have : strip ((ruleRhs g (entryItem .lr1).rule).drop (entryItem .lr1).dot) = [g.entry] := by simp [entryItem, ruleRhs, strip, hA]
    rw [this]
    exact .refl
  | @push q0 q' rest0 ts0 x X t hst he hx ht ih =>
    intro q rest s hq hs it hit
    simp at hq
    obtain ⟨rfl, rfl⟩ := hq
    obtain ⟨s0, s1, h1, h2, _, h3⟩ := hb.edge _ _ _ he
    rw [hs] at h2; simp at h2; subst h2
    obtain ⟨k, h4, h5, h6, h7⟩ := (h3 rfl it).mp hit
    refine usable_closure ?_ h7
    obtain ⟨a, δ, h8, h9, h10⟩ := ih q0 rest0 s0 rfl h1 k h4
    refine ⟨a, δ, h8, h9, ?_⟩
    unfold Item.after at h5
    have hXe := stackSym_ne_eps hx
    rw [lr_drop_of_get h5, strip_cons hXe, isParseTree_root ht hXe] at h10
    simpa using h10

/-- sentential forms of the entry symbol and the end marker -/
theorem rewrites_end (wf : g.WF) {y : List Sym} (h : Rewrites g.rules [g.entry, .eof] y) : ∃ z, y = z ++ [.eof] ∧ Rewrites g.rules [g.entry] z := by
  induction h with
  | refl => exact ⟨[g.entry], rfl, .refl⟩
  | @step α β r _ hr ih =>
    obtain ⟨z, h1, h2⟩ := ih
    rcases List.eq_nil_or_concat β with rfl | ⟨β', c, rfl⟩
    · have := congrArg List.getLast? h1
      simp at this
    · have e : (α ++ .nt r.lhs :: β') ++ [c] = z ++ [.eof] := by simpa using h1
      obtain ⟨rfl, hc⟩ := List.append_inj' e rfl
      simp at hc
      subst hc
      exact ⟨α ++ strip r.rhs ++ β', by simp, .step h2 hr⟩

/-- an item with the terminal or end marker `x` next makes `x` a possible continuation -/
theorem continue_of_rewrites (wf : g.WF) (hp : Productive g) {stk : List StackSym} {ts : List (PTree T)} (h : StackOk g gr stk ts) {x : Sym} (hx : x.isTerm) {δ : List Sym}
    (hr : Rewrites g.rules [g.entry, .eof] (ts.reverse.map PTree.root ++ x :: δ)) : CanContinue g ((PTree.tokensList ts.reverse).map (·.1)) x := by
  obtain ⟨z, h1, h2⟩ := rewrites_end wf hr
  have hdecl := rewrites_declared wf h2 (by
    intro s hs
    simp at hs; subst hs
    obtain ⟨A, h1, h2⟩ := wf.entry_declared
    rw [h1]; exact List.mem_append_right _ h2)
  have hf := forest_derives (stackOk_forest h)
  have heof : Sym.eof ∉ z := by
    intro hm
    have := hdecl _ hm
    rcases List.mem_append.mp this with h | h
    · obtain ⟨_, h⟩ := wf.ts _ h; cases h
    · obtain ⟨_, h⟩ := wf.nts _ h; cases h
  rcases List.eq_nil_or_concat δ with rfl | ⟨δ', c, rfl⟩
  · obtain ⟨rfl, hc⟩ := List.append_inj' h1 rfl
    simp at hc
    subst hc
    exact rewrites_derives h2 hf
  · have e : (ts.reverse.map PTree.root ++ x :: δ') ++ [c] = z ++ [.eof] := by simpa using h1
    obtain ⟨rfl, -⟩ := List.append_inj' e rfl
    cases x with
    | eof => simp at heof
    | t a =>
      obtain ⟨v, hv⟩ := derives_some wf hp δ' (fun s hs => hdecl s (by simp [hs]))
      exact ⟨v, rewrites_derives h2 (hf.append (.term hv))⟩
    | nt A => exact hx.elim
    | eps => exact hx.elim

variable {m : LRMachine} {input : Nat → Tok × T}

theorem nextViable_of_continue {n : Nat} {w : List (Nat × T)} (hc : Consumes input n w) {x : Sym} (hx : (input n).1.sym = some x) (h : CanContinue g (w.map (·.1)) x) :
    NextViable g input n := by
  refine ⟨w, hc, ?_⟩
  cases hi : (input n).1 with
  | tok a =>
    rw [hi] at hx
    simp [Tok.sym] at hx
    subst hx
    obtain ⟨v, h⟩ := h
    exact .inl ⟨a, v, rfl, h⟩
  | eof =>
    rw [hi] at hx
    simp [Tok.sym] at hx
    subst hx
    exact .inr ⟨rfl, h⟩
  | err => rw [hi] at hx; cases hx

/-- an action of an LR(1) parser means that the token can come next -/
theorem action_continue (wf : g.WF) (hp : Productive g) (hv : LoopInv g .lr1 gr []) (hm : Follows g gr m) {q : Nat} {rest : List StackSym} {ts : List (PTree T)}
    (h : StackOk g gr (.state q :: rest) ts) {tk : Tok} {a : LRAction} (ha : m.nextAction q tk = .act a) :
    ∃ x, tk.sym = some x ∧ CanContinue g ((PTree.tokensList ts.reverse).map (·.1)) x := by
  obtain ⟨s, hs⟩ := h.range hv.base
  have hq := getElem?_lt hs
  cases a with
  | shift =>
    obtain ⟨a, q', rfl, h2, _⟩ := hm.shift q _ hq ha
    refine ⟨.t a, rfl, ?_⟩
    obtain ⟨s0, s1, k1, k2, _, k3⟩ := hv.base.edge _ _ _ h2
    rw [hs] at k1; simp at k1; subst k1
    obtain ⟨it, hit⟩ := List.exists_mem_of_ne_nil _ (hv.base.nonempty _ _ k2)
    obtain ⟨k, h4, h5, _, _⟩ := (k3 rfl it).mp hit
    obtain ⟨l, δ, _, _, hr⟩ := stack_usable wf hv.base h q rest s rfl hs k h4
    unfold Item.after at h5
    rw [lr_drop_of_get h5, strip_cons (by simp)] at hr
    exact continue_of_rewrites wf hp h trivial (by simpa using hr)
  | reduce i =>
    obtain ⟨s1, it, x, h1, h2, h3, h4, h5, h6⟩ := hm.reduce q _ i hq ha
    obtain ⟨l, δ, hl, hlt, hr⟩ := stack_usable wf hv.base h q rest s1 rfl h1 it h2
    rw [hl] at h6
    simp only [LaMatch] at h6
    subst h6
    unfold Item.after at h4
    rw [List.drop_eq_nil_of_le (List.getElem?_eq_none_iff.mp h4)] at hr
    exact ⟨l, h5, continue_of_rewrites wf hp h hlt (by simpa [strip] using hr)⟩

/-- one iteration of an LR(1) parser -/
theorem lr1_step (wf : g.WF) (hp : Productive g) (hv : LoopInv g .lr1 gr []) (hm : Follows g gr m) {stk : List StackSym} {pos : Nat} {events : List (LREvent T)}
    (h : LRReaches m input stk pos events) :
    (lrStep m input stk pos = .done) ∨ (∃ exp, lrStep m input stk pos = .unexpected exp) ∨
    (∃ stk' a d, (input pos).1 = .tok a ∧ lrStep m input stk pos = .next stk' (pos + 1) (.shift (.tok a) d)) ∨
    (∃ stk' i, lrStep m input stk pos = .next stk' pos (.reduce i) ∧ NextViable g input pos) := by
  rcases reaches_inv hv hm h with ⟨ts, h1, h2⟩ | ⟨rfl, _⟩
  · right
    obtain ⟨q, rest, rfl⟩ := h1.head
    rcases lrStep_sound hv hm h1 h2 with ⟨exp, he, _⟩ | ⟨stk', pos', ev, he, _⟩
    · exact .inl ⟨exp, he⟩
    · right
      obtain ⟨s, hs⟩ := h1.range hv.base
      have hq := getElem?_lt hs
      have hgoto : ∀ st ps (ev0 : LREvent T), lrGoto m st ps ev0 = .next stk' pos' ev → ps = pos' ∧ ev0 = ev := by
        intro st ps ev0 h
        unfold lrGoto at h
        split at h
        · split at h <;> simp at h <;> exact ⟨h.2.1, h.2.2⟩
        · simp at h
      cases hact : m.nextAction q (input pos).1 with
      | panic => exact absurd hact (hm.noPanic q _ hq)
      | unexpected exp => rw [lrStep_unexpected hact] at he; cases he
      | act a =>
        obtain ⟨x, hx, hc⟩ := action_continue wf hp hv hm h1 hact
        cases a with
        | shift =>
          obtain ⟨a, q', e1, _, _⟩ := hm.shift q _ hq hact
          have he' := he
          rw [lrStep_shift hact] at he'
          obtain ⟨rfl, rfl⟩ := hgoto _ _ _ he'
          exact .inl ⟨stk', a, (input pos).2, e1, by rw [he, e1]⟩
        | reduce i =>
          right
          have he' := he
          simp only [lrStep, hact] at he'
          split at he'
          · cases he'
          · split at he'
            · cases he'
            · obtain ⟨rfl, rfl⟩ := hgoto _ _ _ he'
              exact ⟨stk', i, he, nextViable_of_continue h2.consumed hx hc⟩
  · exact .inl (by simp [lrStep])

theorem reaches_run {stk : List StackSym} {pos : Nat} {events : List (LREvent T)} (h : LRReaches m input stk pos events) :
    ∃ n, ∀ f, lrParse m input (f + n) = lrRun m input f stk pos events := by
  induction h with
  | start => exact ⟨0, fun f => rfl⟩
  | @step stk stk' pos pos' events ev _ hs ih =>
    obtain ⟨n, ih⟩ := ih
    refine ⟨n + 1, fun f => ?_⟩
    have := ih (f + 1)
    rw [lrRun, hs] at this
    dsimp only at this
    rw [← this]
    congr 1
    omega

theorem lrStep_congr {input' : Nat → Tok × T} {stk : List StackSym} {pos : Nat} (h : input pos = input' pos) : lrStep m input stk pos = lrStep m input' stk pos := by
  unfold lrStep
  rw [h]

theorem lrStep_pos {stk stk' : List StackSym} {pos pos' : Nat} {ev : LREvent T} (h : lrStep m input stk pos = .next stk' pos' ev) : pos ≤ pos' := by
  have hgoto : ∀ st ps (ev0 : LREvent T), lrGoto m st ps ev0 = .next stk' pos' ev → ps = pos' := by
    intro st ps ev0 h
    unfold lrGoto at h
    split at h
    · split at h <;> simp at h <;> exact h.2.1
    · simp at h
  unfold lrStep at h
  split at h
  · cases h
  · split at h
    · cases h
    · cases h
    · have := hgoto _ _ _ h; omega
    · split at h
      · cases h
      · split at h
        · cases h
        · have := hgoto _ _ _ h; omega
  · cases h

theorem reaches_congr {input' : Nat → Tok × T} {stk : List StackSym} {pos : Nat} {events : List (LREvent T)} (h : LRReaches m input stk pos events)
    (hj : ∀ j, j ≤ pos → input j = input' j) : LRReaches m input' stk pos events := by
  induction h with
  | start => exact .start
  | @step stk stk' pos pos' events ev _ hs ih =>
    have hle := lrStep_pos hs
    refine .step (ih fun j h => hj j (by omega)) ?_
    rw [← lrStep_congr (hj pos hle)]
    exact hs

/-- some stream that starts the same is accepted -/
theorem viable_accepts (wf : g.WF) (hv : LoopInv g kind gr []) (hm : Obeys g gr m) (hel : EpsLeading g) (hl : EntryNotLeftRecursive g) {n : Nat} (h : NextViable g input n) :
    ∃ inp : Nat → Tok × T, (∀ j, j ≤ n → input j = inp j) ∧ ∃ N ev p, ∀ fuel, N ≤ fuel → lrParse m inp fuel = .ok ev p := by
  obtain ⟨E, hE, _⟩ := wf.entry_declared
  obtain ⟨w, ⟨hw1, hw2⟩, h⟩ := h
  have main : ∀ (w' : List (Nat × T)) (inp : Nat → Tok × T), StreamIs inp w' → Derives g.rules [g.entry] (w'.map (·.1)) →
      ∃ N ev p, ∀ fuel, N ≤ fuel → lrParse m inp fuel = .ok ev p := by
    intro w' inp hs hd
    rw [hE] at hd
    obtain ⟨t, ht, rfl⟩ := derives_tree hd
    rw [← hE] at ht
    obtain ⟨N, evs, ha, _⟩ := lrParse_complete wf hv hm hel hl ht hs
    exact ⟨N, evs, _, ha⟩
  rcases h with ⟨a, v, ha, hd⟩ | ⟨he, hd⟩
  · let d := (input n).2
    let w' : List (Nat × T) := w ++ (a, d) :: v.map (fun x => (x, d))
    let inp : Nat → Tok × T := fun i => match w'[i]? with | some p => (.tok p.1, p.2) | none => (.eof, d)
    refine ⟨inp, ?_, main w' inp ⟨fun i p h => by simp [inp, h], by simp [inp]⟩ ?_⟩
    · intro j hj
      rcases Nat.lt_or_eq_of_le hj with h | rfl
      · have h1 : j < w.length := by omega
        have h2 : w'[j]? = some w[j] := by simp only [w', List.getElem?_append_left h1]; simp [h1]
        simp only [inp, h2]
        exact hw2 j w[j] (by simp [h1])
      · have h2 : w'[j]? = some (a, d) := by
          simp only [w']
          rw [List.getElem?_append_right (by omega)]
          simp [hw1]
        simp only [inp, h2]
        rw [← ha]
    · have : w'.map (·.1) = w.map (·.1) ++ a :: v := by
        simp only [w', List.map_append, List.map_cons, List.map_map]
        congr 2
        exact (List.map_congr_left (fun _ _ => rfl)).trans (List.map_id v)
      rw [this]; exact hd
  · exact ⟨input, fun _ _ => rfl, main w input ⟨hw2, by rw [hw1]; exact he⟩ hd⟩

/-- from here the parser stops -/
def Stops (m : LRMachine) (input : Nat → Tok × T) (stk : List StackSym) (pos : Nat) (events : List (LREvent T)) : Prop :=
  ∃ n, ∀ e p, lrRun m input n stk pos events ≠ .running e p

theorem stops_next {stk stk' : List StackSym} {pos pos' : Nat} {events : List (LREvent T)} {ev : LREvent T} (h : lrStep m input stk pos = .next stk' pos' ev)
    (hs : Stops m input stk' pos' (events ++ [ev])) : Stops m input stk pos events := by
  obtain ⟨n, hn⟩ := hs
  refine ⟨n + 1, fun e p => ?_⟩
  rw [lrRun, h]
  exact hn e p

/-- an LR(1) parser makes finitely many reductions at one token -/
theorem lr1_stops_at (wf : g.WF) (hp : Productive g) (hv : LoopInv g .lr1 gr []) (hm : Follows g gr m) (hm' : Obeys g gr m) (hel : EpsLeading g) (hl : EntryNotLeftRecursive g)
    {pos : Nat} (hshift : ∀ (stk stk' : List StackSym) (events : List (LREvent T)) (a : Nat) (d : T), LRReaches m input stk pos events → (input pos).1 = .tok a →
      lrStep m input stk pos = .next stk' (pos + 1) (.shift (.tok a) d) → Stops m input stk pos events)
    {stk : List StackSym} {events : List (LREvent T)} (hr : LRReaches m input stk pos events) : Stops m input stk pos events := by
  by_contra hT
  have key : ∀ stk events, LRReaches m input stk pos events → ¬ Stops m input stk pos events →
      ∃ stk' ev, lrStep m input stk pos = .next stk' pos ev ∧ LRReaches m input stk' pos (events ++ [ev]) ∧ ¬ Stops m input stk' pos (events ++ [ev]) ∧ NextViable g input pos := by
    intro stk events hr hT
    rcases lr1_step wf hp hv hm hr with h | ⟨exp, h⟩ | ⟨stk', a, d, h1, h⟩ | ⟨stk', i, h, hn⟩
    · exact absurd ⟨1, fun e p => by simp [lrRun, h]⟩ hT
    · exact absurd ⟨1, fun e p => by simp [lrRun, h]⟩ hT
    · exact absurd (hshift stk stk' events a d hr h1 h) hT
    · exact ⟨stk', _, h, .step hr h, fun hs => hT (stops_next h hs), hn⟩
  obtain ⟨_, _, _, _, _, hn⟩ := key stk events hr hT
  obtain ⟨inp, hj, N, ev, p, hN⟩ := viable_accepts wf hv hm' hel hl hn
  have chain : ∀ n, ∃ stk' ev', LRReaches m input stk' pos ev' ∧ ¬ Stops m input stk' pos ev' ∧ ∀ f, lrRun m inp (f + n) stk pos events = lrRun m inp f stk' pos ev' := by
    intro n
    induction n with
    | zero => exact ⟨stk, events, hr, hT, fun f => rfl⟩
    | succ n ih =>
      obtain ⟨stk1, ev1, h1, h2, h3⟩ := ih
      obtain ⟨stk2, ev2, h4, h5, h6, _⟩ := key stk1 ev1 h1 h2
      refine ⟨stk2, _, h5, h6, fun f => ?_⟩
      have := h3 (f + 1)
      rw [lrRun, ← lrStep_congr (hj pos (Nat.le_refl _)), h4] at this
      dsimp only at this
      rw [← this]
      congr 1
      omega
  obtain ⟨n, hn⟩ := reaches_run (reaches_congr hr hj)
  obtain ⟨stk', ev', _, _, h3⟩ := chain N
  have h4 := hn N
  rw [hN (N + n) (by omega)] at h4
  have h5 := h3 0
  rw [Nat.zero_add, ← h4] at h5
  cases h5

/-- an LR(1) parser stops on every stream that ends -/
theorem lr1_stops (wf : g.WF) (hp : Productive g) (hv : LoopInv g .lr1 gr []) (hm : Follows g gr m) (hm' : Obeys g gr m) (hel : EpsLeading g) (hl : EntryNotLeftRecursive g)
    {L : Nat} (hL : ∀ a, (input L).1 ≠ .tok a) : ∀ (k : Nat) (stk : List StackSym) (pos : Nat) (events : List (LREvent T)), pos + k = L → LRReaches m input stk pos events →
      Stops m input stk pos events := by
  intro k
  induction k with
  | zero =>
    intro stk pos events hk hr
    refine lr1_stops_at wf hp hv hm hm' hel hl ?_ hr
    intro _ _ _ a d _ h1 _
    have : pos = L := by omega
    subst this
    exact absurd h1 (hL a)
  | succ k ihk =>
    intro stk pos events hk hr
    refine lr1_stops_at wf hp hv hm hm' hel hl ?_ hr
    intro stk stk' events a d hr _ h
    exact stops_next h (ihk stk' (pos + 1) _ (by omega) (.step hr h))

/-- at an error nothing was reduced since the last shift, so the configuration does not depend on the token found -/
theorem error_config (wf : g.WF) (hp : Productive g) (hv : LoopInv g .lr1 gr []) (hm : Follows g gr m) {stk : List StackSym} {pos : Nat} {events : List (LREvent T)}
    (h : LRReaches m input stk pos events) (hn : ¬ NextViable g input pos) :
    (∀ i, events.getLast? ≠ some (.reduce i)) ∧ ∀ input' : Nat → Tok × T, (∀ j, j < pos → input j = input' j) → LRReaches m input' stk pos events := by
  cases h with
  | start => exact ⟨by simp, fun _ _ => .start⟩
  | @step stk _ pos0 _ events ev hr hs =>
    rcases lr1_step wf hp hv hm hr with h | ⟨exp, h⟩ | ⟨stk', a, d, h1, h⟩ | ⟨stk', i, h, hn'⟩
    · rw [h] at hs; cases hs
    · rw [h] at hs; cases hs
    · rw [h] at hs
      cases hs
      refine ⟨by simp, fun input' hj => ?_⟩
      refine .step (reaches_congr hr fun j h => hj j (by omega)) ?_
      rw [← lrStep_congr (hj pos0 (by omega))]
      exact h
    · rw [h] at hs
      cases hs
      exact absurd hn' hn

end Verif
