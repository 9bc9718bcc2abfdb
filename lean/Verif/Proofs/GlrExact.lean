import Verif.Proofs.GlrComplete
import Verif.Proofs.LRConflict

/-! # The GLR driver counts parse trees -/

set_option autoImplicit false

namespace Verif

variable {T : Type} {g : Grammar} {kind : LRKind} {gr : LRGraph} {m : GlrMachine} {input : Nat → Tok × T}

theorem entryFresh_leftCorner (hf : EntryFresh g) : EntryNotLeftRecursive g := by
  intro E hE h
  have hmem : ∀ {A B : Nat}, StartsRule g A B → ∃ r ∈ g.rules, Sym.nt B ∈ r.rhs := by
    rintro A B ⟨r, h1, _, h2⟩
    exact ⟨r, h1, List.mem_of_getElem? h2⟩
  cases h with
  | one h => obtain ⟨r, h1, h2⟩ := hmem h; exact hf r h1 (by rw [hE]; exact h2)
  | more _ h => obtain ⟨r, h1, h2⟩ := hmem h; exact hf r h1 (by rw [hE]; exact h2)

/-- what can follow an entry symbol that occurs in no right side -/
theorem canFollow_fresh (wf : g.WF) (hf : EntryFresh g) {E : Nat} (hE : g.entry = .nt E) {x : Sym} (h : CanFollow g E x) : x = .eof := by
  obtain ⟨α, β, h⟩ := h
  have gen : ∀ {y : List Sym}, Rewrites g.rules [g.entry, .eof] y → y = [g.entry, .eof] ∨ g.entry ∉ y := by
    intro y hy
    induction hy with
    | refl => exact .inl rfl
    | @step α β r _ hr ih =>
      have hne : g.entry ∉ strip r.rhs := fun h => hf r hr (List.mem_of_mem_filter h)
      refine .inr fun hm => ?_
      rcases ih with ih | ih
      · rw [hE] at ih
        cases α with
        | nil =>
          simp at ih
          obtain ⟨_, rfl⟩ := ih
          simp only [List.nil_append, List.mem_append, List.mem_singleton] at hm
          rcases hm with hm | hm
          · exact hne hm
          · rw [hE] at hm; cases hm
        | cons a α =>
          cases α with
          | nil => simp at ih
          | cons b α => simp at ih
      · simp only [List.mem_append] at hm
        rcases hm with (hm | hm) | hm
        · exact ih (by simp [hm])
        · exact hne hm
        · exact ih (by simp [hm])
  rcases gen h with h | h
  · rw [hE] at h
    cases α with
    | nil => simp at h; exact h.1
    | cons a α =>
      cases α with
      | nil => simp at h
      | cons b α => simp at h
  · exact absurd (by rw [hE]; simp) h

/-- stacks are accepted only at the end of the input -/
def AcceptEof (T : Type) (g : Grammar) (gr : LRGraph) : Prop :=
  ∀ (q : Nat) (rest : List StackSym) (ts : List (PTree T)) (tk : Tok) (i : Nat) (r : Rule), StackOk g gr (.state q :: rest) ts → CanReduce g gr q tk i →
    g.rules[i]? = some r → (StackSym.state q :: rest).drop (2 * (strip r.rhs).length) = [.state 0] → g.entry = .nt r.lhs → tk = .eof

theorem tok_eof {tk : Tok} (h : tk.sym = some .eof) : tk = .eof := by
  cases tk <;> simp [Tok.sym] at h ⊢

theorem acceptEof_fresh (wf : g.WF) (hv : LoopInv g kind gr []) (hk : kind.hasLa = true) (hf : EntryFresh g) : AcceptEof T g gr := by
  rintro q rest ts tk i r _ ⟨s, it, x, h1, h2, h3, h4, h5, h6, h7⟩ hi _ hE
  have hla := (hv.base.items q s h1 it h2).la
  unfold LaOk at hla
  rw [if_pos hk] at hla
  obtain ⟨a, ha, _⟩ := hla
  have hfo := hv.base.follow q s h1 it h2 a ha
  simp only [h3] at hfo
  obtain ⟨r', hr', hfo⟩ := hfo
  rw [hi] at hr'
  simp only [Option.some.injEq] at hr'
  subst hr'
  have := canFollow_fresh wf hf hE hfo
  subst this
  rw [ha] at h7
  have : x = .eof := by simpa [LaMatch, eq_comm] using h7
  subst this
  exact tok_eof h5

theorem acceptEof_lr1 (hv : LoopInv g .lr1 gr []) (hl : EntryNotLeftRecursive g) : AcceptEof T g gr := by
  rintro q rest ts tk i r0 h ⟨s1, it, x, h1, h2, h3, h4, h5, h6, h7⟩ hi0 hd hE
  obtain ⟨r, hi, hrm, hlen, hdot, hk, p, rest', cs, ts', s', hdrop, hts, hst, hf, hs', hcore⟩ := reduce_stack hv h h1 h2 h3 h4
  rw [hi0] at hi
  simp only [Option.some.injEq] at hi
  subst hi
  have hi := hi0
  rw [hd] at hdrop
  simp only [List.cons.injEq, StackSym.state.injEq] at hdrop
  obtain ⟨rfl, rfl⟩ := hdrop
  have hit : (⟨some i, r0.rhs.length, it.la⟩ : Item) ∈ s1 := by
    have : it = ⟨some i, r0.rhs.length, it.la⟩ := by cases it; simp_all
    rw [← this]; exact h2
  obtain ⟨p', rest'', s'', e1, e2, e3⟩ := stack_back_la hv rfl h q rest s1 i r0 r0.rhs.length it.la rfl h1 hi hit
  rw [← hk, hd] at e1
  simp only [List.cons.injEq, StackSym.state.injEq] at e1
  obtain ⟨rfl, rfl⟩ := e1
  obtain ⟨s0, hs0, hcl⟩ := hv.base.start
  rw [e2] at hs0; simp at hs0; subst hs0
  have hcl' := (hcl _).mp e3
  rcases closure_cases hcl' with he | ⟨par, j, r', hpar, hpa, hj, hj1, _, hex⟩
  · simp [entryItem] at he
  · simp at hj1; subst hj1
    rw [hi] at hj; simp at hj; subst hj
    have := start_entry_only hE hl hpar hpa
    subst this
    simp only [ExpandsWith, entryItem, LRKind.endLa, ruleRhs] at hex
    obtain ⟨b, hb1, hb2, β, hb3⟩ := hex
    have e : strip (List.drop (0 + 1) [g.entry] ++ [Sym.eof]) = [Sym.eof] := by simp [strip]
    rw [e] at hb3
    have := rewrites_eof hb3
    simp at this
    rw [this.1] at hb1
    rw [hb1] at h7
    have : x = .eof := by simpa [LaMatch, eq_comm] using h7
    subst this
    exact tok_eof h5

theorem final_eof (hv : LoopInv g kind gr []) (hm : GFollows g gr m) (ha : AcceptEof T g gr) {pos : Nat} {tk : Tok} {c c' : GConf T} (hf : Final m tk c c')
    (h : LInv g gr input pos c) (hr : c'.isRoot = true) : tk = .eof := by
  induction hf with
  | @fin c c' a hact hc =>
    obtain ⟨h1, h2⟩ := h
    cases c with
    | root _ => simp [GConf.isRoot] at h1
    | live stk ev =>
      obtain ⟨ts, hst, _⟩ := id h2
      obtain ⟨q, rest, rfl⟩ := hst.head
      obtain ⟨s, hs⟩ := hst.range hv.base
      obtain ⟨l, hl, hact⟩ := actsOf_live hact
      cases a with
      | shift => simp [accOf] at hc; subst hc; simp [GConf.isRoot] at hr
      | reduce i =>
        have hcr := ((hm.acts q tk l (getElem?_lt hs) hl).2.2.2 i).mp hact
        obtain ⟨r, p, rest', cs, ts', e1, e2, e3, e4, e5, rfl, e7, e8, e9⟩ := glr_reduce hv hm hst hcr
        rcases e9 with ⟨_, q', he, hg, hst'⟩ | ⟨hE, rfl, hg, rfl, rfl⟩
        · simp [accOf, linReduce, e3, e5, hg] at hc
        · exact ha q rest _ tk i r hst hcr e1 e5 hE
  | red hact hc _ ih => exact ih ((linv_redInv hv hm pos tk).new _ h _ hact _ hc) hr

theorem acc_eof (hv : LoopInv g kind gr []) (hm : GFollows g gr m) (ha : AcceptEof T g gr) {n : Nat} {e : List (LREvent T)} (h : GAcc m input n e) : (input n).1 = .eof := by
  obtain ⟨c, h1, h2⟩ := h
  exact final_eof hv hm ha h2 (heads_inv hv hm h1) rfl

/-- a stream consumed up to the end of file is exactly the one before it -/
theorem consumes_stream {w u : List (Nat × T)} {n : Nat} (hin : StreamIs input w) (hc : Consumes input n u) (he : (input n).1 = .eof) : n = w.length ∧ u = w := by
  obtain ⟨h1, h2⟩ := hin
  obtain ⟨h3, h4⟩ := hc
  have hn : n = w.length := by
    rcases Nat.lt_trichotomy n w.length with h | h | h
    · exfalso
      have := h1 n w[n] (List.getElem?_eq_getElem h)
      rw [this] at he; cases he
    · exact h
    · exfalso
      have := h4 w.length (u[w.length]'(by omega)) (List.getElem?_eq_getElem (by omega))
      rw [this] at h2; cases h2
  refine ⟨hn, List.ext_getElem? fun i => ?_⟩
  by_cases hi : i < w.length
  · have a1 := h1 i w[i] (List.getElem?_eq_getElem hi)
    have a2 := h4 i (u[i]'(by omega)) (List.getElem?_eq_getElem (by omega))
    rw [a1] at a2
    rw [List.getElem?_eq_getElem hi, List.getElem?_eq_getElem (by omega)]
    simp only [Prod.mk.injEq, Tok.tok.injEq] at a2
    rw [Option.some.injEq]
    exact Prod.ext a2.1.symm a2.2.symm
  · rw [List.getElem?_eq_none (by omega), List.getElem?_eq_none (by omega)]

theorem heads_lives {n : Nat} {c : GConf T} (h : Heads m input n c) : ∀ j, j < n → Lives m input j := by
  induction h with
  | start => intro j hj; omega
  | @shift pos c c' h1 h2 h3 ih =>
    intro j hj
    rcases Nat.lt_or_eq_of_le (Nat.lt_succ_iff.mp hj) with h | rfl
    · exact ih j h
    · exact ⟨c, c', h1, h2, h3⟩

theorem traceIs_inj {e : List (LREvent T)} {t t' : List (PEvent T)} (h : TraceIs g e t) (h' : TraceIs g e t') : t = t' := by
  unfold TraceIs at h h'
  rw [h] at h'
  exact (List.map_injective_iff.mpr (fun _ _ h => Option.some.inj h)) h'

theorem meaning_inj (hd : DistinctRules g) {a b : LREvent T} {x : PEvent T} (h : a.meaning g = some x) (h' : b.meaning g = some x) : a = b := by
  cases a with
  | shift ta da =>
    cases ta with
    | tok a =>
      cases b with
      | shift tb db =>
        cases tb with
        | tok b =>
          simp only [LREvent.meaning, Option.some.injEq] at h h'
          rw [← h] at h'
          simp only [PEvent.shift.injEq] at h'
          rw [h'.1, h'.2]
        | _ => simp [LREvent.meaning] at h'
      | reduce i =>
        simp only [LREvent.meaning, Option.some.injEq, Option.map_eq_some_iff] at h h'
        obtain ⟨_, _, h'⟩ := h'
        rw [← h] at h'; cases h'
    | _ => simp [LREvent.meaning] at h
  | reduce i =>
    simp only [LREvent.meaning, Option.map_eq_some_iff] at h
    obtain ⟨r, hr, h⟩ := h
    cases b with
    | shift tb db =>
      cases tb with
      | tok b =>
        simp only [LREvent.meaning, Option.some.injEq] at h'
        rw [← h] at h'; cases h'
      | _ => simp [LREvent.meaning] at h'
    | reduce j =>
      simp only [LREvent.meaning, Option.map_eq_some_iff] at h'
      obtain ⟨r', hr', h'⟩ := h'
      rw [← h] at h'
      simp only [PEvent.reduce.injEq] at h'
      subst h'
      have hi := getElem?_lt hr
      have hj := getElem?_lt hr'
      rw [List.getElem?_eq_getElem hi] at hr
      rw [List.getElem?_eq_getElem hj] at hr'
      simp only [Option.some.injEq] at hr hr'
      have := (List.Nodup.getElem_inj_iff hd (hi := hi) (hj := hj)).mp (hr.trans hr'.symm)
      rw [this]

theorem trace_events_inj (hd : DistinctRules g) : ∀ {e e' : List (LREvent T)} {t : List (PEvent T)}, TraceIs g e t → TraceIs g e' t → e = e' := by
  intro e
  induction e with
  | nil =>
    intro e' t h h'
    simp [TraceIs] at h
    subst h
    simp [TraceIs] at h'
    exact h'.symm
  | cons a e ih =>
    intro e' t h h'
    cases t with
    | nil => simp [TraceIs] at h
    | cons x t =>
      cases e' with
      | nil => simp [TraceIs] at h'
      | cons b e' =>
        simp only [TraceIs, List.map_cons, List.cons.injEq] at h h'
        rw [meaning_inj hd h.1 h'.1, ih h.2 h'.2]

/-- what each result says about the parse trees of the input -/
structure Counts (g : Grammar) (w : List (Nat × T)) (res : GlrResult T) : Prop where
  ok : ∀ ev pos, res = .ok ev pos → pos = w.length + 1 ∧ ∃ t, IsParseOf g w t ∧ TraceIs g ev t.postorder ∧ ∀ t', IsParseOf g w t' → t' = t
  panic : ∀ ev pos, res = .panic ev pos → pos = w.length ∧ ∃ t t', t ≠ t' ∧ IsParseOf g w t ∧ IsParseOf g w t'
  unexpected : ∀ ev pos errs, res = .unexpected ev pos errs → ∀ t, ¬ IsParseOf g w t

theorem glr_counts (wf : g.WF) (hv : LoopInv g kind gr []) (hm : GFollows g gr m) (ha : AcceptEof T g gr) (hl : EntryNotLeftRecursive g) (hel : EpsLeading g)
    (hd : DistinctRules g) {w : List (Nat × T)} (hin : StreamIs input w) {res : GlrResult T} (h : Outcome m input res) : Counts g w res := by
  have key : ∀ n e, GAcc m input n e → n = w.length ∧ ∃ t, IsParseOf g w t ∧ TraceIs g e t.postorder := by
    intro n e hacc
    obtain ⟨t, h1, h2, h3⟩ := acc_tree hv hm hacc
    obtain ⟨rfl, h4⟩ := consumes_stream hin h2 (acc_eof hv hm ha hacc)
    exact ⟨rfl, t, ⟨h1, h4⟩, h3⟩
  have comp : ∀ t, IsParseOf g w t → ∃ e, GAcc m input w.length e ∧ TraceIs g e t.postorder := by
    rintro t ⟨h1, rfl⟩
    exact glr_complete wf hv hm hel hl h1 hin
  refine ⟨fun ev pos hr => ?_, fun ev pos hr => ?_, fun ev pos errs hr t ht => ?_⟩
  · subst hr
    obtain ⟨n, rfl, h1, h2, h3, h4⟩ := h
    obtain ⟨rfl, t, h5, h6⟩ := key n ev h1
    refine ⟨rfl, t, h5, h6, fun t' ht' => ?_⟩
    obtain ⟨e, h7, h8⟩ := comp t' ht'
    rw [h2 e h7] at h8
    exact postorder_inj ht'.1 h5.1 (traceIs_inj h8 h6)
  · subst hr
    rcases h with ⟨e, e', h1, h2, h3, _⟩ | ⟨n, e, rfl, h1, ⟨c, c', h2, h3, h4⟩, _⟩
    · obtain ⟨rfl, t, h4, h5⟩ := key _ e h2
      obtain ⟨_, t', h6, h7⟩ := key _ e' h3
      refine ⟨rfl, t, t', fun heq => ?_, h4, h6⟩
      subst heq
      exact h1 (trace_events_inj hd h5 h7)
    · exfalso
      obtain ⟨hs1, hs2⟩ := final_inv hv hm h3 (heads_inv hv hm h2)
      have := hs2 h4
      cases c' with
      | root _ => simp [GConf.isRoot] at h4
      | live stk ev =>
        obtain ⟨a, _, _, _, ha', _⟩ := this
        rw [acc_eof hv hm ha h1] at ha'
        cases ha'
  · subst hr
    obtain ⟨h1, h2, _⟩ := h
    obtain ⟨e, h3, _⟩ := comp t ht
    by_cases hlt : w.length ≤ pos
    · exact h1 _ hlt e h3
    · obtain ⟨c, h4, _⟩ := h3
      exact h2 (heads_lives h4 pos (by omega))

end Verif
