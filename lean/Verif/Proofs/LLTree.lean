import Verif.Proofs.LLCpp
import Verif.Spec.LLEnd
import Verif.Spec.LRTrace

/-! # Parse trees and runs of the LL parser: every tree is reported, LL(1) grammars are unambiguous, what the C++ parser accepts -/

set_option autoImplicit false

namespace Verif

variable {T : Type} {input : Nat → Tok × T} {disp : Dispatch} {visible : Nat → Bool} {g : Grammar}

/-- the stream, with data, from a position on -/
def DataAt (input : Nat → Tok × T) (pos : Nat) (w : List (Nat × T)) (y : Sym) : Prop :=
  (∀ i p, w[i]? = some p → input (pos + i) = (.tok p.1, p.2)) ∧ (input (pos + w.length)).1.sym = some y

theorem DataAt.cons {pos : Nat} {x : Nat × T} {w : List (Nat × T)} {y : Sym} (h : DataAt input pos (x :: w) y) :
    input pos = (.tok x.1, x.2) ∧ DataAt input (pos + 1) w y := by
  refine ⟨by simpa using h.1 0 x (by simp), fun i p hp => ?_, ?_⟩
  · have := h.1 (i + 1) p (by simpa using hp)
    rwa [show pos + (i + 1) = pos + 1 + i by omega] at this
  · have := h.2
    rwa [List.length_cons, show pos + (w.length + 1) = pos + 1 + w.length by omega] at this

/-- the stream at a subtree, and what follows it -/
theorem DataAt.split {pos : Nat} {u v : List (Nat × T)} {y : Sym} {r : Rule} {ss : List Sym} (h : DataAt input pos (u ++ v) y) (hy : y.isTerm)
    (hc : InContext g (.nt r.lhs :: ss) y) (hv : Derives g.rules ss (v.map (·.1))) :
    (∃ y', y'.isTerm ∧ DataAt input pos u y' ∧ FollowIn g y' r.lhs) ∧ DataAt input (pos + u.length) v y := by
  constructor
  · have hu : ∀ i p, u[i]? = some p → input (pos + i) = (.tok p.1, p.2) := fun i p hp => h.1 i p (by
      rw [List.getElem?_append_left (List.getElem?_eq_some_iff.mp hp).1]; exact hp)
    cases v with
    | nil => exact ⟨y, hy, ⟨hu, by simpa using h.2⟩, (hc [] r.lhs ss rfl).2 (derives_nul hv rfl)⟩
    | cons b v =>
      refine ⟨.t b.1, trivial, ⟨hu, ?_⟩, (hc [] r.lhs ss rfl).1 _ trivial (derives_first hv b.1 (v.map (·.1)) rfl)⟩
      rw [h.1 u.length b (by simp)]
      rfl
  · refine ⟨fun i p hp => ?_, ?_⟩
    · have := h.1 (u.length + i) p (by rw [List.getElem?_append_right (by omega), show u.length + i - u.length = i by omega]; exact hp)
      rwa [← Nat.add_assoc] at this
    · have := h.2
      rwa [List.length_append, ← Nat.add_assoc] at this

/-- the rule of a node is predicted -/
theorem DataAt.predicted {pos : Nat} {u : List (Nat × T)} {y' : Sym} {r : Rule} (h : DataAt input pos u y') (hu : Derives g.rules r.rhs (u.map (·.1)))
    (hf : FollowIn g y' r.lhs) : ∃ x, (input pos).1.sym = some x ∧ (PF g r x ∨ PO g r x) := by
  cases u with
  | nil => exact ⟨y', by simpa using h.2, .inr ⟨derives_nul hu rfl, hf⟩⟩
  | cons b u => exact ⟨.t b.1, by rw [h.cons.1]; rfl, .inl (derives_first hu b.1 (u.map (·.1)) rfl)⟩

theorem forest_acc (hd : PredictiveDispatch g disp) (visible : Nat → Bool) {ss : List Sym} {ts : List (PTree T)} (h : Forest g.rules ss ts) :
    ∀ pos y, y.isTerm → InContext g ss y → DataAt input pos (PTree.tokensList ts) y →
      ∃ n, Acc disp visible input n (llPush id ss) pos (PTree.callbacksList visible ts) (pos + (PTree.tokensList ts).length) := by
  induction h with
  | nil => intro pos y _ _ _; exact ⟨0, .nil⟩
  | eps _ ih => intro pos y hy hc hs; exact ih pos y hy hc.tail hs
  | @term a d ss ts _ ih =>
    intro pos y hy hc hs
    simp only [PTree.tokensList, PTree.tokens, List.cons_append, List.nil_append] at hs
    obtain ⟨h0, h1⟩ := hs.cons
    obtain ⟨n, h2⟩ := ih (pos + 1) y hy hc.tail h1
    refine ⟨n + 1, ?_⟩
    have := Acc.term (disp := disp) (visible := visible) (t := .tok a) (by rw [h0]) h2
    rw [h0] at this
    simp only [PTree.callbacksList, PTree.callbacks, PTree.tokensList, PTree.tokens, List.cons_append, List.nil_append, List.length_cons, llPush]
    rw [show pos + ((PTree.tokensList ts).length + 1) = pos + 1 + (PTree.tokensList ts).length by omega]
    exact this
  | @nonterm r cs ss ts hr hcs hts ih1 ih2 =>
    intro pos y hy hc hs
    simp only [PTree.tokensList, PTree.tokens] at hs
    obtain ⟨⟨y', hy', hu, hf⟩, hv⟩ := hs.split hy hc (forest_derives hts)
    obtain ⟨n1, a1⟩ := ih1 pos y' hy' (inContext_rhs hr hf) hu
    obtain ⟨n2, a2⟩ := ih2 _ y hy hc.tail hv
    obtain ⟨x, hx1, hx2⟩ := hu.predicted (forest_derives hcs) hf
    have hdisp := hd r hr _ x hx1 hx2
    have := Acc.nonterm (visible := visible) hdisp (a1.append (.exit (id := r.lhs) a2))
    refine ⟨n1 + (n2 + 1) + 1, ?_⟩
    simp only [PTree.callbacksList, PTree.callbacks, PTree.tokensList, PTree.tokens, List.length_append, llPush, ← Nat.add_assoc, id_eq, List.append_assoc] at this ⊢
    exact this

/-- at most one rule of a non-terminal is predicted -/
theorem predicted_unique {table : LLTable} (h : TableFor g g.rules table) {r r' : Rule} (hr : r ∈ g.rules) (hr' : r' ∈ g.rules) (hl : r.lhs = r'.lhs) {tk : Tok} {x : Sym}
    (hx : tk.sym = some x) (h1 : PF g r x ∨ PO g r x) (h2 : PF g r' x ∨ PO g r' x) : r = r' := by
  have hx' : x.isTerm := by cases tk <;> simp [Tok.sym] at hx <;> subst hx <;> trivial
  obtain ⟨i, hi, rfl⟩ := List.mem_iff_getElem.mp hr
  obtain ⟨j, hj, rfl⟩ := List.mem_iff_getElem.mp hr'
  have hp := List.pairwise_iff_getElem.mp h.disjoint
  rcases Nat.lt_trichotomy i j with hij | hij | hij
  · exact absurd ⟨h1, h2⟩ (hp i j hi hj hij hl x hx')
  · subst hij; rfl
  · exact absurd ⟨h2, h1⟩ (hp j i hj hi hij hl.symm x hx')

theorem forest_unique {table : LLTable} (h : TableFor g g.rules table) {ss : List Sym} {ts : List (PTree T)} (hf : Forest g.rules ss ts) :
    ∀ ts' pos y y', Forest g.rules ss ts' → y.isTerm → y'.isTerm → InContext g ss y → InContext g ss y' → DataAt input pos (PTree.tokensList ts) y →
      DataAt input pos (PTree.tokensList ts') y' → ts = ts' := by
  induction hf with
  | nil => intro ts' pos y y' hf' _ _ _ _ _ _; cases hf'; rfl
  | eps _ ih =>
    intro ts' pos y y' hf' hy hy' hc hc' hs hs'
    cases hf' with
    | eps hf' => exact ih ts' pos y y' hf' hy hy' hc.tail hc'.tail hs hs'
  | @term a d ss ts _ ih =>
    intro ts' pos y y' hf' hy hy' hc hc' hs hs'
    cases hf' with
    | @term _ d' _ ts' hf' =>
      simp only [PTree.tokensList, PTree.tokens, List.cons_append, List.nil_append] at hs hs'
      obtain ⟨h0, h1⟩ := hs.cons
      obtain ⟨h0', h1'⟩ := hs'.cons
      rw [h0] at h0'
      simp only [Prod.mk.injEq] at h0'
      rw [h0'.2, ih ts' _ y y' hf' hy hy' hc.tail hc'.tail h1 h1']
  | @nonterm r cs ss ts hr hcs hts ih1 ih2 =>
    intro ts'' pos y y' hf' hy hy' hc hc' hs hs'
    generalize hA : r.lhs = A at hf'
    cases hf' with
    | @nonterm r' cs' _ ts' hr' hcs' hts' =>
      simp only [PTree.tokensList, PTree.tokens] at hs hs'
      rw [hA] at hc'
      obtain ⟨⟨z, hz, hu, hfo⟩, hv⟩ := hs.split hy hc (forest_derives hts)
      obtain ⟨⟨z', hz', hu', hfo'⟩, hv'⟩ := hs'.split hy' hc' (forest_derives hts')
      obtain ⟨x, hx1, hx2⟩ := hu.predicted (forest_derives hcs) hfo
      obtain ⟨x', hx1', hx2'⟩ := hu'.predicted (forest_derives hcs') hfo'
      rw [hx1] at hx1'
      obtain rfl := Option.some.inj hx1'
      obtain rfl := predicted_unique h hr hr' hA hx1 hx2 hx2'
      obtain rfl := ih1 cs' pos z z' hcs' hz hz' (inContext_rhs hr hfo) (inContext_rhs hr hfo') hu hu'
      rw [ih2 ts' _ y y' hts' hy hy' hc.tail hc'.tail hv hv']

theorem entry_context {E : Nat} (hE : g.entry = .nt E) : InContext g [.nt E] .eof := by
  intro α A β he
  cases α with
  | nil =>
    simp at he
    obtain ⟨rfl, rfl⟩ := he
    exact ⟨fun x _ hf => (by cases hf), fun _ => .entry hE rfl⟩
  | cons a α => simp at he

theorem streamIs_dataAt {w : List (Nat × T)} (h : StreamIs input w) : DataAt input 0 w .eof :=
  ⟨fun i p hp => by rw [Nat.zero_add]; exact h.1 i p hp, by rw [Nat.zero_add, h.2]; rfl⟩

/-- a stream with the given tokens -/
theorem exists_stream [Inhabited T] (w : List (Nat × T)) : ∃ input : Nat → Tok × T, StreamIs input w := by
  refine ⟨fun i => match w[i]? with | some p => (.tok p.1, p.2) | none => (.eof, default), fun i p hp => by simp [hp], by simp⟩

/-! ## The C++ parser -/

theorem firstIn_tok_declared (wf : g.WF) {a : Nat} {ss : List Sym} (h : FirstIn g.rules (.t a) ss) : Sym.t a ∈ ss ∨ Sym.t a ∈ g.terminals := by
  induction h with
  | here => exact .inl (by simp)
  | eps _ ih => exact ih.imp_left (List.mem_cons_of_mem _)
  | ntHere hr _ ih => exact .inr (ih.elim (fun h => wf.t_declared _ hr a h) id)
  | ntSkip _ _ _ ih => exact ih.imp_left (List.mem_cons_of_mem _)

theorem followIn_tok_declared (wf : g.WF) {a A : Nat} (h : FollowIn g (.t a) A) : Sym.t a ∈ g.terminals := by
  induction h with
  | entry _ h => simp at h
  | ctx hr he hf =>
    rcases firstIn_tok_declared wf hf with h | h
    · exact wf.t_declared _ hr a (by rw [he]; simp [h])
    · exact h
  | up _ _ _ _ ih => exact ih

/-- on tokens the C++ dispatch without gaps is that of the table -/
theorem cpp_disp_tok (wf : g.WF) (hgap : NoGaps g) {table : LLTable} (h : TableFor g g.rules table) {A : Nat} (hA : Sym.nt A ∈ g.nonTerminals) {tk : Tok} {syms : List LLSym}
    (ht : tableDispatch table A tk = some syms) (hne : tk ≠ .eof) : cppDispatch g table A tk = some syms := by
  cases tk with
  | eof => exact absurd rfl hne
  | err => simp [tableDispatch, Tok.sym] at ht
  | tok a =>
    have hdec : Sym.t a ∈ g.terminals := by
      obtain ⟨r, hr, _, _, x, hx, hp⟩ := (table_exact h).2 _ _ _ ht
      simp only [Tok.sym, Option.some.injEq] at hx
      subst hx
      rcases hp with hp | ⟨_, hp⟩
      · exact (firstIn_tok_declared wf hp).elim (fun h => wf.t_declared r hr a h) id
      · exact followIn_tok_declared wf hp
    rw [← ht]
    rcases cpp_disp wf hgap h hA (.tok a) with h1 | h1
    · simp only [cppDispatch, if_pos hA, if_pos hdec, Option.map_eq_none_iff] at h1
      simp [tableDispatch, Tok.sym, h1] at ht
    · exact h1

/-- a non-terminal is entered when the lookahead is the end of file -/
def Late (input : Nat → Tok × T) : Nat → List (LLEvent T) → Prop
  | _, [] => False
  | pos, .enter _ :: es => (input pos).1 = .eof ∨ Late input pos es
  | pos, .exit _ :: es => Late input pos es
  | pos, .token _ _ :: es => Late input (pos + 1) es

theorem acc_cpp (wf : g.WF) (hgap : NoGaps g) {table : LLTable} (h : TableFor g g.rules table) {n pos pos' : Nat} {s : List LLSym} {ev : List (LLEvent T)}
    (ha : Acc (tableDispatch table) (fun _ => true) input n s pos ev pos') : StackDeclared g s →
    (¬ Late input pos ev → ∃ ev', Acc (cppDispatch g table) visible input n s pos ev' pos') ∧
    ∀ n' ev' p', Acc (cppDispatch g table) visible input n' s pos ev' p' → ¬ Late input pos ev := by
  induction ha with
  | nil => intro _; exact ⟨fun _ => ⟨[], .nil⟩, fun _ _ _ _ h => h⟩
  | exit _ ih =>
    intro hs
    obtain ⟨h1, h2⟩ := ih (fun A hA => hs A (List.mem_cons_of_mem _ hA))
    refine ⟨fun hl => ?_, fun n' ev' p' hc => ?_⟩
    · obtain ⟨ev', h3⟩ := h1 hl
      exact ⟨_, .exit h3⟩
    · cases hc with
      | exit hc => exact h2 _ _ _ hc
  | term he _ ih =>
    intro hs
    obtain ⟨h1, h2⟩ := ih (fun A hA => hs A (List.mem_cons_of_mem _ hA))
    refine ⟨fun hl => ?_, fun n' ev' p' hc => ?_⟩
    · obtain ⟨ev', h3⟩ := h1 hl
      exact ⟨_, .term he h3⟩
    · cases hc with
      | term _ hc => exact h2 _ _ _ hc
  | @nonterm n A pos pos' s syms ev hdisp _ ih =>
    intro hs
    have hA := hs A List.mem_cons_self
    obtain ⟨r, hr, _, hsyms, _⟩ := (table_exact h).2 _ _ _ hdisp
    have hs' : StackDeclared g (syms ++ .exit A :: s) := by
      intro B hB
      rcases List.mem_append.mp hB with hB | hB
      · rw [hsyms] at hB; exact wf.nt_declared r hr B (mem_llPush hB)
      · simp at hB; exact hs B (List.mem_cons_of_mem _ hB)
    obtain ⟨h1, h2⟩ := ih hs'
    refine ⟨fun hl => ?_, fun n' ev' p' hc => ?_⟩
    · simp only [if_true, List.cons_append, List.nil_append, Late, not_or] at hl
      obtain ⟨ev', h3⟩ := h1 hl.2
      exact ⟨_, .nonterm (cpp_disp_tok wf hgap h hA hdisp hl.1) h3⟩
    · cases hc with
      | nonterm hd hc =>
        have hne : (input pos).1 ≠ .eof := by
          intro he
          rw [he] at hd
          simp [cppDispatch, if_pos hA] at hd
        have := cpp_disp_tok wf hgap h hA hdisp hne
        rw [this] at hd
        cases hd
        simp only [if_true, List.cons_append, List.nil_append, Late, not_or]
        exact ⟨hne, h2 _ _ _ hc⟩

/-- in the callbacks of a tree followed by the end of file, a non-terminal is entered late iff no token follows -/
theorem late_iff : ∀ (es : List (LLEvent T)) (pos : Nat) (w : List (Nat × T)) (d : T), DataAt input pos w .eof →
    (es.filterMap fun | .token t d => some (t, d) | _ => none) = w.map (fun p => (Tok.tok p.1, p.2)) →
    (Late input pos (es ++ [.token .eof d]) ↔ ∃ pre A post, es = pre ++ .enter A :: post ∧ ∀ a d, LLEvent.token a d ∉ post) := by
  intro es
  induction es with
  | nil => intro pos w d _ _; simp [Late]
  | cons e es ih =>
    intro pos w d hw he
    cases e with
    | exit A =>
      simp only [List.filterMap_cons] at he
      simp only [List.cons_append, Late]
      rw [ih pos w d hw he]
      constructor
      · rintro ⟨pre, B, post, rfl, h⟩; exact ⟨_ :: pre, B, post, rfl, h⟩
      · rintro ⟨pre, B, post, h1, h⟩
        cases pre with
        | nil => simp at h1
        | cons x pre => simp at h1; exact ⟨pre, B, post, h1.2, h⟩
    | token a d' =>
      simp only [List.filterMap_cons] at he
      cases w with
      | nil => simp at he
      | cons x w =>
        simp only [List.map_cons, List.cons.injEq] at he
        simp only [List.cons_append, Late]
        rw [ih (pos + 1) w d hw.cons.2 he.2]
        constructor
        · rintro ⟨pre, B, post, rfl, h⟩; exact ⟨_ :: pre, B, post, rfl, h⟩
        · rintro ⟨pre, B, post, h1, h⟩
          cases pre with
          | nil => simp at h1
          | cons x pre => simp at h1; exact ⟨pre, B, post, h1.2, h⟩
    | enter A =>
      simp only [List.filterMap_cons] at he
      simp only [List.cons_append, Late]
      rw [ih pos w d hw he]
      constructor
      · rintro (h | ⟨pre, B, post, rfl, h⟩)
        · refine ⟨[], A, es, rfl, fun a d' hm => ?_⟩
          cases w with
          | nil =>
            have : (a, d') ∈ (es.filterMap fun | .token t d => some (t, d) | _ => none) := List.mem_filterMap.mpr ⟨_, hm, rfl⟩
            rw [he] at this
            simp at this
          | cons x w => rw [hw.cons.1] at h; simp at h
        · exact ⟨_ :: pre, B, post, rfl, h⟩
      · rintro ⟨pre, B, post, h1, h⟩
        cases pre with
        | nil =>
          simp at h1
          left
          cases w with
          | nil =>
            have := hw.2
            simp only [List.length_nil, Nat.add_zero] at this
            cases hp : (input pos).1 <;> simp [hp, Tok.sym] at this ⊢
          | cons x w =>
            have : (Tok.tok x.1, x.2) ∈ (es.filterMap fun | .token t d => some (t, d) | _ => none) := by rw [he]; simp
            obtain ⟨e, h2, h3⟩ := List.mem_filterMap.mp this
            cases e with
            | token a d' => exact absurd (h1.2 ▸ h2) (h a d')
            | enter _ => simp at h3
            | exit _ => simp at h3
        | cons x pre => simp at h1; exact .inr ⟨pre, B, post, h1.2, h⟩

mutual
theorem tokens_callbacks : ∀ t : PTree T, ((t.callbacks (fun _ => true)).filterMap fun | .token t d => some (t, d) | _ => none) = t.tokens.map (fun p => (Tok.tok p.1, p.2))
  | .leaf a d => by simp [PTree.callbacks, PTree.tokens]
  | .node r cs => by
    simp only [PTree.callbacks, PTree.tokens, if_true, List.cons_append, List.nil_append, List.filterMap_cons, List.filterMap_append, List.filterMap_nil, List.append_nil]
    exact tokens_callbacksList cs
theorem tokens_callbacksList : ∀ ts : List (PTree T), ((PTree.callbacksList (fun _ => true) ts).filterMap fun | .token t d => some (t, d) | _ => none) =
    (PTree.tokensList ts).map (fun p => (Tok.tok p.1, p.2))
  | [] => rfl
  | t :: ts => by
    simp only [PTree.callbacksList, PTree.tokensList, List.filterMap_append, List.map_append]
    rw [tokens_callbacks t, tokens_callbacksList ts]
end

/-! ## Streams with an error -/

theorem err_stops {N : Nat} (hN : (input N).1 = .err) (hd : ∀ A, disp A .err = none) : ∀ s, LLSym.terminal .err ∉ s → ∀ ev, ∃ fuel, llRun disp visible input fuel s N ev ≠ .fuel := by
  intro s
  induction s with
  | nil => intro _ ev; exact ⟨1, by simp [llRun, llStep]⟩
  | cons x s ih =>
    intro hs ev
    cases x with
    | exit A =>
      obtain ⟨fuel, h⟩ := ih (fun h => hs (List.mem_cons_of_mem _ h)) (ev ++ (if visible A then some (.exit A) else none : Option (LLEvent T)).toList)
      exact ⟨fuel + 1, by simpa only [llRun, llStep] using h⟩
    | nonTerminal A => exact ⟨1, by simp [llRun, llStep, hN, hd]⟩
    | terminal t =>
      have ht : t ≠ .err := fun h => hs (by rw [h]; simp)
      exact ⟨1, by simp [llRun, llStep, hN, ht]⟩

theorem llPush_err {ss : List Sym} : LLSym.terminal .err ∉ llPush id ss := by
  induction ss with
  | nil => simp [llPush]
  | cons s ss ih => cases s <;> simp [llPush, ih]

theorem err_ends (hsound : SoundDispatch g disp) (hd : ∀ A, disp A .err = none) {input' : Nat → Tok × T} {N : Nat} (hN : (input N).1 = .err) (he : ∀ i, i < N → input' i = input i) :
    ∀ fuel s pos ev, pos ≤ N → LLSym.terminal .err ∉ s → llRun disp visible input' fuel s pos ev ≠ .fuel → ∃ fuel, llRun disp visible input fuel s pos ev ≠ .fuel := by
  intro fuel
  induction fuel with
  | zero => intro s pos ev _ _ h; exact absurd rfl h
  | succ fuel ih =>
    intro s pos ev hp hs h
    rcases Nat.lt_or_eq_of_le hp with hlt | rfl
    · have hstep : llStep disp visible input' s pos = llStep disp visible input s pos := by
        unfold llStep
        rw [he pos hlt]
      rw [llRun, hstep] at h
      cases hst : llStep disp visible input s pos with
      | done => exact ⟨1, by simp [llRun, hst]⟩
      | error => exact ⟨1, by simp [llRun, hst]⟩
      | next s' pos' e =>
        rw [hst] at h
        have hnext : pos' ≤ N ∧ LLSym.terminal .err ∉ s' := by
          cases s with
          | nil => simp [llStep] at hst
          | cons x s =>
            have hs2 : LLSym.terminal .err ∉ s := fun h => hs (List.mem_cons_of_mem _ h)
            cases x with
            | exit A =>
              simp only [llStep, LLStep.next.injEq] at hst
              exact ⟨by omega, hst.1 ▸ hs2⟩
            | terminal t =>
              simp only [llStep] at hst
              split at hst
              · simp only [LLStep.next.injEq] at hst
                exact ⟨by omega, hst.1 ▸ hs2⟩
              · cases hst
            | nonTerminal A =>
              simp only [llStep] at hst
              split at hst
              · cases hst
              · rename_i syms hdisp
                simp only [LLStep.next.injEq] at hst
                obtain ⟨r, _, _, hr⟩ := hsound _ _ _ hdisp
                refine ⟨by omega, ?_⟩
                rw [← hst.1, hr]
                simp [llPush_err, hs2]
        obtain ⟨f, hf⟩ := ih s' pos' _ hnext.1 hnext.2 h
        exact ⟨f + 1, by rw [llRun, hst]; exact hf⟩
    · exact err_stops hN hd s hs ev

/-! ## More passes change nothing -/

theorem llFirstLoop_mono (g : Grammar) : ∀ (n m : Nat) (fs out : SymSets), n ≤ m → firstSetsLoop g n fs = .ok out → firstSetsLoop g m fs = .ok out := by
  intro n
  induction n with
  | zero => intro m fs out _ h; cases h
  | succ n ih =>
    intro m fs out hm h
    obtain ⟨m, rfl⟩ : ∃ k, m = k + 1 := ⟨m - 1, by omega⟩
    rw [firstSetsLoop] at h ⊢
    cases hx : g.rules.foldlM firstStep (fs, false) with
    | error e => rw [hx] at h; cases h
    | ok x =>
      rw [hx] at h
      obtain ⟨fs', any⟩ := x
      cases any with
      | false => exact h
      | true => exact ih m fs' out (by omega) h

theorem llFollowLoop_mono (g : Grammar) (fs : SymSets) : ∀ (n m : Nat) (fo out : SymSets), n ≤ m → followSetsLoop g fs n fo = .ok out → followSetsLoop g fs m fo = .ok out := by
  intro n
  induction n with
  | zero => intro m fo out _ h; cases h
  | succ n ih =>
    intro m fo out hm h
    obtain ⟨m, rfl⟩ : ∃ k, m = k + 1 := ⟨m - 1, by omega⟩
    rw [followSetsLoop] at h ⊢
    cases hx : (followSequences g).foldlM (fun st s => followPositions s.1 fs s.2 st) (fo, false) with
    | error e => rw [hx] at h; cases h
    | ok x =>
      rw [hx] at h
      obtain ⟨fo', any⟩ := x
      cases any with
      | false => exact h
      | true => exact ih m fo' out (by omega) h

theorem llGenerateTable_mono (g : Grammar) (n m : Nat) (table : LLTable) (hm : n ≤ m) (h : llGenerateTable g n = .ok table) : llGenerateTable g m = .ok table := by
  unfold llGenerateTable at h ⊢
  cases h1 : computeFirstSets g n with
  | error e => rw [h1] at h; cases e <;> cases h
  | ok fs =>
    rw [h1] at h
    rw [show computeFirstSets g m = .ok fs from llFirstLoop_mono g n m _ _ hm h1]
    cases h2 : computeFollowSets g fs n with
    | error e =>
      have h : (liftRes (computeFollowSets g fs n) >>= fun fo => g.rules.foldlM (llRule fs fo) []) = .ok table := h
      rw [h2] at h; cases e <;> cases h
    | ok fo =>
      have h : (liftRes (computeFollowSets g fs n) >>= fun fo => g.rules.foldlM (llRule fs fo) []) = .ok table := h
      rw [h2] at h
      show (liftRes (computeFollowSets g fs m) >>= fun fo => g.rules.foldlM (llRule fs fo) []) = .ok table
      rw [show computeFollowSets g fs m = .ok fo from llFollowLoop_mono g fs n m _ _ hm h2]
      exact h

end Verif
