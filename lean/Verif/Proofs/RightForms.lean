import Verif.Proofs.ItemAfter

/-! # Items and rightmost derivations; Knuth's definition -/

set_option autoImplicit false

namespace Verif

variable {g : Grammar} {kind : LRKind} {gr : LRGraph}

/-- the symbol seen next: the first token or the end marker -/
def nextSym : List Nat → Sym
  | [] => .eof
  | a :: _ => .t a

/-- the lookahead of an item when the tokens `w` follow -/
def lookAt (kind : LRKind) (w : List Nat) : Option Sym := if kind.hasLa then some (nextSym w) else none

theorem lookAt_take {k1 : LRKind} (h : k1.hasLa = true) (w y : List Nat) : lookAt k1 w = lookAt k1 y ↔ w.take 1 = y.take 1 := by
  unfold lookAt
  rw [if_pos h, if_pos h]
  cases w <;> cases y <;> simp [nextSym]

/-! ## Sentential forms -/

theorem strip_noeps {ss : List Sym} (h : Sym.eps ∉ ss) : strip ss = ss := by
  unfold strip
  rw [List.filter_eq_self]
  intro a ha
  simp only [decide_eq_true_eq]
  rintro rfl
  exact h ha

theorem rewrites_split {rules : List Rule} {x y z : List Sym} (h : Rewrites rules (x ++ y) z) : ∃ z1 z2, z = z1 ++ z2 ∧ Rewrites rules x z1 ∧ Rewrites rules y z2 := by
  induction h with
  | refl => exact ⟨x, y, rfl, .refl, .refl⟩
  | @step α β r _ hr ih =>
    obtain ⟨z1, z2, h1, h2, h3⟩ := ih
    rcases List.append_eq_append_iff.mp h1 with ⟨a, rfl, h4⟩ | ⟨a, rfl, h4⟩
    · cases a with
      | nil =>
        simp only [List.nil_append] at h4
        subst h4
        refine ⟨α, strip r.rhs ++ β, by simp, by simpa using h2, ?_⟩
        exact Rewrites.step (α := []) (by simpa using h3) hr
      | cons b a =>
        simp only [List.cons_append, List.cons.injEq] at h4
        obtain ⟨rfl, rfl⟩ := h4
        refine ⟨α ++ strip r.rhs ++ a, z2, by simp, Rewrites.step h2 hr, h3⟩
    · cases a with
      | nil =>
        simp only [List.nil_append] at h4
        subst h4
        refine ⟨z1, strip r.rhs ++ β, by simp, h2, ?_⟩
        exact Rewrites.step (α := []) (by simpa using h3) hr
      | cons b a =>
        subst h4
        refine ⟨z1, b :: a ++ strip r.rhs ++ β, by simp, h2, ?_⟩
        exact Rewrites.step (α := b :: a) (by simpa using h3) hr

theorem rewrites_fixed {rules : List Rule} {x z : List Sym} (hx : ∀ s ∈ x, ∀ A, s ≠ .nt A) (h : Rewrites rules x z) : z = x := by
  induction h with
  | refl => rfl
  | @step α β r _ _ ih => exact absurd rfl (hx (.nt r.lhs) (by rw [← ih]; simp) r.lhs)

theorem rhs_declared (wf : g.WF) {r : Rule} (hr : r ∈ g.rules) : ∀ s ∈ strip r.rhs, s ∈ g.symbols := by
  intro s hs
  simp only [strip, List.mem_filter, decide_eq_true_eq] at hs
  cases s with
  | t a => exact List.mem_append.mpr (.inl (wf.t_declared r hr a hs.1))
  | nt A => exact List.mem_append.mpr (.inr (wf.nt_declared r hr A hs.1))
  | eps => exact absurd rfl hs.2
  | eof => exact absurd hs.1 (wf.no_eof r hr)

/-- what can be rewritten to begin with a terminal derives a token string that begins with it -/
theorem firstOf_derives (wf : g.WF) (hp : Productive g) {ss : List Sym} (hss : ∀ s ∈ strip ss, s ∈ g.symbols) {w : List Nat} {b : Sym} (hb : b.isTerm)
    (h : FirstOf g (ss ++ [nextSym w]) b) : ∃ v, Derives g.rules ss v ∧ nextSym (v ++ w) = b := by
  obtain ⟨β, h⟩ := h
  have hn : nextSym w ≠ .eps := by cases w <;> simp [nextSym]
  have e : strip (ss ++ [nextSym w]) = strip ss ++ [nextSym w] := by simp [strip, hn]
  rw [e] at h
  obtain ⟨z1, z2, h1, h2, h3⟩ := rewrites_split h
  have := rewrites_fixed (by cases w <;> simp [nextSym]) h3
  subst this
  cases z1 with
  | nil =>
    simp only [List.nil_append, List.cons.injEq] at h1
    exact ⟨[], derives_strip (rewrites_derives h2 .nil), by simpa using h1.1.symm⟩
  | cons b' z1 =>
    simp only [List.cons_append, List.cons.injEq] at h1
    obtain ⟨rfl, _⟩ := h1
    have hd := rewrites_declared wf h2 hss
    have hbd := hd b List.mem_cons_self
    cases b with
    | t c =>
      obtain ⟨v, hv⟩ := derives_some wf hp z1 (fun s hs => hd s (List.mem_cons_of_mem _ hs))
      exact ⟨c :: v, derives_strip (rewrites_derives h2 (.term hv)), rfl⟩
    | eof =>
      rcases List.mem_append.mp hbd with h | h
      · obtain ⟨A, h⟩ := wf.ts _ h; cases h
      · obtain ⟨A, h⟩ := wf.nts _ h; cases h
    | nt => cases hb
    | eps => cases hb

/-! ## Rightmost forms -/

theorem rightForm_declared (wf : g.WF) {x : List Sym} (h : RightForm g x) : ∀ s ∈ x, s ∈ g.symbols := by
  induction h with
  | start =>
    obtain ⟨A, h1, h2⟩ := wf.entry_declared
    intro s hs
    rw [List.mem_singleton] at hs
    subst hs
    rw [h1]
    exact List.mem_append.mpr (.inr h2)
  | @step α r w _ hr ih =>
    intro s hs
    simp only [List.mem_append] at hs
    rcases hs with (hs | hs) | hs
    · exact ih s (by simp [hs])
    · exact rhs_declared wf hr s hs
    · exact ih s (List.mem_append.mpr (.inr (List.mem_cons_of_mem _ hs)))

/-- the symbols before a string of tokens can be rewritten to what they derive -/
theorem rightForm_derive {ss : List Sym} {v : List Nat} (hd : Derives g.rules ss v) : ∀ {α : List Sym} {w : List Nat}, RightForm g (α ++ strip ss ++ w.map Sym.t) →
    RightForm g (α ++ (v ++ w).map Sym.t) := by
  induction hd with
  | nil => intro α w h; simpa [strip] using h
  | eps _ ih => intro α w h; exact ih (by simpa [strip] using h)
  | @term a ss v _ ih =>
    intro α w h
    have := ih (α := α ++ [.t a]) (w := w) (by simpa [strip] using h)
    simpa using this
  | @nonterm r ss u v hr _ _ ih1 ih2 =>
    intro α w h
    rw [strip_cons (by simp)] at h
    have h2 := ih2 (α := α ++ [.nt r.lhs]) (w := w) (by simpa using h)
    have h3 := RightForm.step (α := α) (w := v ++ w) (by simpa using h2) hr
    have h4 := ih1 h3
    simpa using h4

/-- what an item for a string says about rightmost derivations -/
def Valid (g : Grammar) (kind : LRKind) (α : List Sym) (it : Item) : Prop :=
  match it.rule with
  | none => α = [] ∧ it.dot = 0 ∧ it.la = kind.endLa
  | some i => ∃ r α' w, g.rules[i]? = some r ∧ it.dot ≤ r.rhs.length ∧ α = α' ++ strip (r.rhs.take it.dot) ∧ RightForm g (α' ++ .nt r.lhs :: w.map Sym.t) ∧
      it.la = lookAt kind w

theorem after_get {it : Item} {i : Nat} {r : Rule} (hr : it.rule = some i) (h : g.rules[i]? = some r) : it.after g = r.rhs[it.dot]? := by
  simp [Item.after, ruleRhs, hr, h]

theorem strip_drop_declared (wf : g.WF) {r : Rule} (hr : r ∈ g.rules) (d : Nat) : ∀ s ∈ strip (r.rhs.drop d), s ∈ g.symbols := by
  intro s hs
  refine rhs_declared wf hr s ?_
  simp only [strip, List.mem_filter] at hs ⊢
  exact ⟨List.mem_of_mem_drop hs.1, hs.2⟩

theorem valid_of_after (wf : g.WF) (hp : Productive g) (hel : EpsLeading g) {α : List Sym} {it : Item} (h : ItemAfter g kind α it) :
    Valid g kind α it ∧ ∀ i r, it.rule = some i → g.rules[i]? = some r → leadingEps r.rhs ≤ it.dot := by
  induction h with
  | start => exact ⟨⟨rfl, rfl, rfl⟩, by simp⟩
  | @closure α it it' h0 hs ih =>
    have hla := h0.la wf
    obtain ⟨ih, _⟩ := ih
    obtain ⟨A, j, r', x, h1, h2, rfl, h4, rfl⟩ := hs
    refine ⟨?_, fun i r hi hr => ?_⟩
    swap
    · simp only [Option.some.injEq] at hi
      subst hi
      rw [h2] at hr; cases hr
      exact Nat.le_refl _
    cases hr : it.rule with
    | none =>
      unfold Valid at ih
      rw [hr] at ih
      obtain ⟨rfl, h6, h7⟩ := ih
      refine ⟨r', [], [], h2, leadingEps_le _, by simp [strip_take_lead], ?_, ?_⟩
      · have : g.entry = .nt r'.lhs := by
          simpa [Item.after, ruleRhs, hr, h6] using h1
        rw [List.nil_append, List.map_nil, ← this]
        exact .start
      · unfold ExpandsWith at h4
        simp only
        cases kind with
        | lr0 =>
          rw [h7] at h4
          simpa [lookAt, LRKind.hasLa, LRKind.endLa] using h4
        | lr1 =>
          rw [h7] at h4
          obtain ⟨b, rfl, _, h5⟩ := h4
          rw [hr, h6] at h5
          obtain ⟨β, h5⟩ := h5
          have := rewrites_eof (by simpa [ruleRhs, strip] using h5)
          simp only [List.cons.injEq] at this
          simp [lookAt, LRKind.hasLa, nextSym, this.1]
        | lalr =>
          rw [h7] at h4
          obtain ⟨b, rfl, _, h5⟩ := h4
          rw [hr, h6] at h5
          obtain ⟨β, h5⟩ := h5
          have := rewrites_eof (by simpa [ruleRhs, strip] using h5)
          simp only [List.cons.injEq] at this
          simp [lookAt, LRKind.hasLa, nextSym, this.1]
    | some i =>
      unfold Valid at ih
      rw [hr] at ih
      obtain ⟨r, α', w, g1, g2, rfl, g4, g5⟩ := ih
      have hrm := List.mem_of_getElem? g1
      rw [after_get hr g1] at h1
      have hform := RightForm.step g4 hrm
      have e : strip r.rhs = strip (r.rhs.take it.dot) ++ (.nt r'.lhs :: strip (r.rhs.drop (it.dot + 1))) := by
        conv_lhs => rw [← List.take_append_drop it.dot r.rhs]
        rw [strip_append, lr_drop_of_get h1, strip_cons (by simp)]
      obtain ⟨v, hv, hlook⟩ : ∃ v, Derives g.rules (r.rhs.drop (it.dot + 1)) v ∧ x = lookAt kind (v ++ w) := by
        unfold ExpandsWith at h4
        unfold lookAt at g5 ⊢
        split at g5
        · rw [g5] at h4
          obtain ⟨b, rfl, hb, h5⟩ := h4
          rw [hr] at h5
          simp only [ruleRhs, g1, Option.map_some, Option.getD_some] at h5
          obtain ⟨v, v1, v2⟩ := firstOf_derives wf hp (strip_drop_declared wf hrm _) hb h5
          rename_i hk
          exact ⟨v, v1, by rw [if_pos hk, v2]⟩
        · rw [g5] at h4
          obtain ⟨v, hv⟩ := derives_some wf hp (strip (r.rhs.drop (it.dot + 1))) (strip_drop_declared wf hrm _)
          rename_i hk
          exact ⟨v, derives_strip hv, by rw [if_neg hk]; exact h4⟩
      refine ⟨r', α' ++ strip (r.rhs.take it.dot), v ++ w, h2, leadingEps_le _, by simp [strip_take_lead], ?_, hlook⟩
      rw [e] at hform
      have := rightForm_derive hv (α := α' ++ strip (r.rhs.take it.dot) ++ [.nt r'.lhs]) (w := w) (by simpa using hform)
      simpa using this
  | @goto α it X h0 ha hr ih =>
    obtain ⟨ih, ihl⟩ := ih
    cases hi : it.rule with
    | none => exact absurd hi hr
    | some i =>
      unfold Valid at ih
      rw [hi] at ih
      obtain ⟨r, α', w, g1, g2, rfl, g4, g5⟩ := ih
      rw [after_get hi g1] at ha
      have hl := ihl i r hi g1
      refine ⟨?_, fun i' r' hi' hr' => Nat.le_succ_of_le (ihl i' r' (by rw [hi]; exact hi') hr')⟩
      unfold Valid
      simp only
      have hlt := getElem?_lt ha
      refine ⟨r, α', w, g1, hlt, ?_, g4, g5⟩
      have hX : X ≠ .eps := by
        rintro rfl
        refine hel r (List.mem_of_getElem? g1) ?_
        refine List.mem_of_getElem? (i := it.dot - leadingEps r.rhs) ?_
        rw [List.getElem?_drop]
        rw [← ha]
        congr 1
        omega
      rw [List.append_assoc, List.take_add_one, ha, strip_append]
      simp [strip, hX]

/-! ## Completeness -/

theorem strip_eq_drop (hel : EpsLeading g) {r : Rule} (hr : r ∈ g.rules) : strip r.rhs = r.rhs.drop (leadingEps r.rhs) := by
  conv_lhs => rw [← List.take_append_drop (leadingEps r.rhs) r.rhs]
  rw [strip_append, strip_take_lead, List.nil_append]
  unfold strip
  rw [List.filter_eq_self]
  intro a ha
  simp only [decide_eq_true_eq]
  rintro rfl
  exact hel r hr ha

/-- moving the dot over the symbols of a right side -/
theorem after_advance {α : List Sym} {i : Nat} {r : Rule} {la : Option Sym} (hr : g.rules[i]? = some r) : ∀ (n d : Nat), d + n ≤ r.rhs.length →
    ItemAfter g kind α ⟨some i, d, la⟩ → ItemAfter g kind (α ++ (r.rhs.drop d).take n) ⟨some i, d + n, la⟩ := by
  intro n
  induction n with
  | zero => intro d _ h; simpa using h
  | succ n ih =>
    intro d hd h
    have h1 := ih d (by omega) h
    have hx : r.rhs[d + n]? = some r.rhs[d + n] := List.getElem?_eq_getElem (by omega)
    have h2 := h1.goto (X := r.rhs[d + n]) (by rw [after_get rfl hr]; exact hx) (by simp)
    rw [List.take_add_one, List.getElem?_drop, hx, ← List.append_assoc]
    exact h2

/-- lookaheads when the symbols `y` follow -/
def LookOk (g : Grammar) (kind : LRKind) (y : List Sym) (la : Option Sym) : Prop :=
  if kind.hasLa then ∃ b : Sym, la = some b ∧ b.isTerm ∧ FirstOf g (y ++ [.eof]) b else la = none

theorem lookOk_tokens {w : List Nat} : LookOk g kind (w.map Sym.t) (lookAt kind w) := by
  unfold LookOk lookAt
  split
  · refine ⟨_, rfl, by cases w <;> trivial, ?_⟩
    cases w with
    | nil => exact ⟨[], by simpa [strip, nextSym] using Rewrites.refl⟩
    | cons a w => exact ⟨w.map Sym.t ++ [.eof], by rw [strip_noeps (by simp)]; exact Rewrites.refl⟩
  · rfl

theorem firstOf_tokens {γ : List Sym} {w : List Nat} {b : Sym} (h : FirstOf g (γ ++ w.map Sym.t ++ [.eof]) b) : FirstOf g (γ ++ [nextSym w]) b := by
  obtain ⟨β, h⟩ := h
  have hn : nextSym w ≠ .eps := by cases w <;> simp [nextSym]
  rw [List.append_assoc, strip_append, strip_noeps (ss := w.map Sym.t ++ [Sym.eof]) (by simp)] at h
  obtain ⟨z1, z2, h1, h2, h3⟩ := rewrites_split h
  have := rewrites_fixed (by
    intro s hs A
    simp only [List.mem_append, List.mem_map, List.mem_singleton] at hs
    rcases hs with ⟨a, _, rfl⟩ | rfl <;> simp) h3
  subst this
  have h4 := h2.ctx [] [nextSym w]
  unfold FirstOf
  rw [strip_append, strip_noeps (ss := [nextSym w]) (by simpa using hn.symm)]
  cases z1 with
  | nil =>
    refine ⟨[], ?_⟩
    have : b = nextSym w := by cases w <;> simp_all [nextSym]
    rw [this]
    simpa using h4
  | cons c z1 =>
    simp only [List.cons_append, List.cons.injEq] at h1
    obtain ⟨rfl, _⟩ := h1
    exact ⟨z1 ++ [nextSym w], by simpa using h4⟩

theorem firstOf_rewrites {x y : List Sym} {b : Sym} (hxy : Rewrites g.rules (strip x) (strip y)) (h : FirstOf g y b) : FirstOf g x b := by
  obtain ⟨β, h⟩ := h
  exact ⟨β, hxy.trans h⟩

theorem after_of_form (wf : g.WF) (hel : EpsLeading g) {x : List Sym} (h : RightForm g x) : ∀ (α y : List Sym) (i : Nat) (r : Rule) (la : Option Sym), g.rules[i]? = some r →
    x = α ++ .nt r.lhs :: y → LookOk g kind y la → ItemAfter g kind α ⟨some i, leadingEps r.rhs, la⟩ := by
  induction h with
  | start =>
    intro α y i r la hr hx hla
    rcases α with _ | ⟨a, α⟩
    · simp only [List.nil_append, List.cons.injEq] at hx
      obtain ⟨h1, rfl⟩ := hx
      refine ItemAfter.start.closure ⟨r.lhs, i, r, la, ?_, hr, rfl, ?_, rfl⟩
      · simp [Item.after, ruleRhs, h1]
      · unfold LookOk at hla
        unfold ExpandsWith
        cases kind with
        | lr0 => simpa [LRKind.hasLa, LRKind.endLa] using hla
        | lr1 => simpa [LRKind.hasLa, LRKind.endLa, ruleRhs] using hla
        | lalr => simpa [LRKind.hasLa, LRKind.endLa, ruleRhs] using hla
    · simp at hx
  | @step α1 r1 w1 h1 hr1 ih =>
    intro α y i r la hr hx hla
    have h1d := rightForm_declared wf h1
    have hne1 : Sym.eps ∉ α1 := fun hc => by
      have := h1d .eps (by simp [hc])
      rcases List.mem_append.mp this with h | h
      · obtain ⟨A, h⟩ := wf.ts _ h; cases h
      · obtain ⟨A, h⟩ := wf.nts _ h; cases h
    rw [List.append_assoc] at hx
    rcases List.append_eq_append_iff.mp hx with ⟨a, rfl, h2⟩ | ⟨a, rfl, h2⟩
    · -- inside the new right side, or in the tokens
      rcases List.append_eq_append_iff.mp h2 with ⟨b, rfl, h3⟩ | ⟨b, h3, h4⟩
      · exfalso
        have : Sym.nt r.lhs ∈ w1.map Sym.t := by rw [h3]; simp
        simp at this
      · cases b with
        | nil =>
          exfalso
          have : Sym.nt r.lhs ∈ w1.map Sym.t := by rw [← List.nil_append (w1.map Sym.t), ← h4]; simp
          simp at this
        | cons c b =>
          simp only [List.cons_append, List.cons.injEq] at h4
          obtain ⟨rfl, rfl⟩ := h4
          obtain ⟨j, hj⟩ := List.mem_iff_getElem?.mp hr1
          have hi := ih α1 (w1.map Sym.t) j r1 (lookAt kind w1) hj rfl lookOk_tokens
          have hs := strip_eq_drop hel hr1
          have hlen : leadingEps r1.rhs + a.length < r1.rhs.length := by
            have := congrArg List.length (hs.symm.trans h3)
            simp only [List.length_drop, List.length_append, List.length_cons] at this
            omega
          have hadv := after_advance hj a.length (leadingEps r1.rhs) (by omega) hi
          rw [← hs, h3, List.take_left] at hadv
          have hget : r1.rhs[leadingEps r1.rhs + a.length]? = some (.nt r.lhs) := by
            rw [← List.getElem?_drop, ← hs, h3]
            simp
          have hrest : r1.rhs.drop (leadingEps r1.rhs + a.length + 1) = b := by
            rw [Nat.add_assoc, ← List.drop_drop, ← hs, h3]
            simp
          refine hadv.closure ⟨r.lhs, i, r, la, ?_, hr, rfl, ?_, rfl⟩
          · rw [after_get rfl hj]; exact hget
          · unfold LookOk at hla
            unfold ExpandsWith
            simp only [lookAt, ruleRhs, hj, Option.map_some, Option.getD_some, hrest]
            split at hla
            · rename_i hk
              rw [if_pos hk]
              obtain ⟨b', rfl, hb, h5⟩ := hla
              exact ⟨b', rfl, hb, firstOf_tokens h5⟩
            · rename_i hk
              rw [if_neg hk]
              exact hla
    · cases a with
      | nil =>
        simp only [List.append_nil, List.nil_append] at h2 ih h1 hne1 h1d
        -- the right side begins with the non-terminal
        cases hrr : strip r1.rhs with
        | nil =>
          exfalso
          rw [hrr] at h2
          have : Sym.nt r.lhs ∈ w1.map Sym.t := by rw [← List.nil_append (w1.map Sym.t), ← h2]; simp
          simp at this
        | cons c b =>
          rw [hrr] at h2
          simp only [List.cons_append, List.cons.injEq] at h2
          obtain ⟨rfl, rfl⟩ := h2
          obtain ⟨j, hj⟩ := List.mem_iff_getElem?.mp hr1
          have hi := ih α (w1.map Sym.t) j r1 (lookAt kind w1) hj rfl lookOk_tokens
          have hs := strip_eq_drop hel hr1
          rw [hrr] at hs
          have hget : r1.rhs[leadingEps r1.rhs]? = some (.nt r.lhs) := by
            have : (r1.rhs.drop (leadingEps r1.rhs))[0]? = some (.nt r.lhs) := by rw [← hs]; rfl
            rw [List.getElem?_drop] at this
            exact this
          have hrest : r1.rhs.drop (leadingEps r1.rhs + 1) = b := by
            rw [← List.drop_drop, ← hs]
            rfl
          refine hi.closure ⟨r.lhs, i, r, la, ?_, hr, rfl, ?_, rfl⟩
          · rw [after_get rfl hj]; exact hget
          · unfold LookOk at hla
            unfold ExpandsWith
            simp only [lookAt, ruleRhs, hj, Option.map_some, Option.getD_some, hrest]
            split at hla
            · rename_i hk
              rw [if_pos hk]
              obtain ⟨b', rfl, hb, h5⟩ := hla
              exact ⟨b', rfl, hb, firstOf_tokens h5⟩
            · rename_i hk
              rw [if_neg hk]
              exact hla
      | cons c a =>
        simp only [List.cons_append, List.cons.injEq] at h2
        obtain ⟨rfl, rfl⟩ := h2
        refine ih α (a ++ .nt r1.lhs :: w1.map Sym.t) i r la hr (by simp) ?_
        unfold LookOk at hla ⊢
        split at hla
        · rename_i hk
          rw [if_pos hk]
          obtain ⟨b', rfl, hb, h5⟩ := hla
          refine ⟨b', rfl, hb, firstOf_rewrites ?_ h5⟩
          have ha : Sym.eps ∉ a := fun hc => hne1 (by simp [hc])
          rw [strip_noeps (ss := a ++ Sym.nt r1.lhs :: w1.map Sym.t ++ [Sym.eof]) (by simp [ha])]
          have : strip (a ++ (strip r1.rhs ++ w1.map Sym.t) ++ [.eof]) = a ++ strip r1.rhs ++ (w1.map Sym.t ++ [.eof]) := by
            rw [strip_noeps (by simp [ha, strip])]
            simp
          rw [this]
          have h6 : Rewrites g.rules (a ++ .nt r1.lhs :: w1.map Sym.t ++ [.eof]) (a ++ .nt r1.lhs :: (w1.map Sym.t ++ [.eof])) := by simpa using Rewrites.refl
          exact Rewrites.step h6 hr1
        · rename_i hk
          rw [if_neg hk]
          exact hla

/-- the completed item for what was replaced last -/
theorem after_of_handle (wf : g.WF) (hel : EpsLeading g) {α : List Sym} {i : Nat} {r : Rule} {w : List Nat} (hr : g.rules[i]? = some r)
    (h : RightForm g (α ++ .nt r.lhs :: w.map Sym.t)) : ∀ β γ, strip r.rhs = β ++ γ →
    ItemAfter g kind (α ++ β) ⟨some i, r.rhs.length - γ.length, lookAt kind w⟩ := by
  intro β γ hβ
  have h1 := after_of_form (kind := kind) wf hel h α _ i r (lookAt kind w) hr rfl lookOk_tokens
  have hs := strip_eq_drop hel (List.mem_of_getElem? hr)
  have hlen := congrArg List.length (hs.symm.trans hβ)
  have hl := leadingEps_le r.rhs
  simp only [List.length_drop, List.length_append] at hlen
  have h2 := after_advance hr β.length (leadingEps r.rhs) (by omega) h1
  rw [← hs, hβ, List.take_left] at h2
  rwa [show leadingEps r.rhs + β.length = r.rhs.length - γ.length by omega] at h2

/-! ## Conflicts and Knuth's definition -/

theorem map_t_inj {u v : List Nat} (h : u.map Sym.t = v.map Sym.t) : u = v :=
  List.map_injective_iff.mpr (fun a b h => by cases h; rfl) h

/-- a completed item and a symbol its lookahead does not tell apart -/
theorem clash_shift {sets : List (List Item)} {q : Nat} {s : List Item} {it : Item} {X : Sym} (hs : sets[q]? = some s) (hit : it ∈ s) (hc : it.after g = none)
    (hsh : LetsShift g s X) (hla : it.la = none ∨ it.la = some X) : ∃ c, Clash g sets c := by
  have hm : it ∈ completedFor g s it.la := by simp [completedFor, hit, hc]
  match he : completedFor g s it.la, hm with
  | [], hm => simp at hm
  | [x], hm =>
    simp only [List.mem_singleton] at hm
    subst hm
    exact ⟨_, .shiftReduce hs he hsh hla⟩
  | a :: b :: l, _ => exact ⟨_, .reduceReduce (la := it.la) hs (by rw [he]; simp)⟩

/-- two completed items with the same lookahead -/
theorem clash_reduce {sets : List (List Item)} {q : Nat} {s : List Item} {it it' : Item} (hs : sets[q]? = some s) (hit : it ∈ s) (hit' : it' ∈ s) (hc : it.after g = none)
    (hc' : it'.after g = none) (hla : it.la = it'.la) (hne : it ≠ it') : ∃ c, Clash g sets c := by
  have hm : it ∈ completedFor g s it.la := by simp [completedFor, hit, hc]
  have hm' : it' ∈ completedFor g s it.la := by simp [completedFor, hit', hc', hla]
  match he : completedFor g s it.la, hm, hm' with
  | [], hm, _ => simp at hm
  | [x], hm, hm' =>
    simp only [List.mem_singleton] at hm hm'
    exact absurd (hm.trans hm'.symm) hne
  | a :: b :: l, _, _ => exact ⟨_, .reduceReduce (la := it.la) hs (by rw [he]; simp)⟩

theorem two_of_length {s : List Item} (hn : s.Nodup) (h : 2 ≤ s.length) : ∃ a ∈ s, ∃ b ∈ s, a ≠ b := by
  match s, hn, h with
  | a :: b :: l, hn, _ =>
    refine ⟨a, by simp, b, by simp, ?_⟩
    rintro rfl
    simp at hn

/-- if the definition is violated, the states have a clash -/
theorem clash_of_not_lr (wf : g.WF) (hel : EpsLeading g) {k : Nat} (hk : kind.hasLa = true → k = 1) (hv : LoopInv g kind gr []) (h : ¬ IsLR g k) :
    ∃ c, Clash g gr.sets c := by
  unfold IsLR at h
  push Not at h
  obtain ⟨α, γ, i, j, r, r', w, x, y, hr, hr', hw, hx, he, hlook, hne⟩ := h
  have hla : lookAt kind w = lookAt kind y := by
    cases hh : kind.hasLa with
    | true => rw [hk hh] at hlook; exact (lookAt_take hh w y).mpr hlook
    | false => simp [lookAt, hh]
  have iA := after_of_handle (kind := kind) wf hel hr hw (strip r.rhs) [] (by simp)
  have iB := after_of_handle (kind := kind) wf hel hr' hx (strip r'.rhs) [] (by simp)
  simp only [List.length_nil, Nat.sub_zero] at iA iB
  have cA : (⟨some i, r.rhs.length, lookAt kind w⟩ : Item).after g = none := by rw [after_get rfl hr]; simp
  have cB : (⟨some j, r'.rhs.length, lookAt kind x⟩ : Item).after g = none := by rw [after_get rfl hr']; simp
  have hcase : ∀ (c : Nat) (v u : List Nat), v = c :: u → (lookAt kind v = none ∨ lookAt kind v = some (.t c)) := by
    rintro c v u rfl
    unfold lookAt
    split
    · exact .inr rfl
    · exact .inl rfl
  have hshift : ∀ {φ ψ : List Sym} {it1 it2 : Item} {c : Nat}, ItemAfter g kind φ it1 → it1.after g = none → (it1.la = none ∨ it1.la = some (.t c)) →
      ItemAfter g kind (φ ++ .t c :: ψ) it2 → ∃ c, Clash g gr.sets c := by
    intro φ ψ it1 it2 c h1 h2 h3 h4
    obtain ⟨k, k1, k2, k3⟩ := itemAfter_prefix h4 φ ψ _ rfl
    obtain ⟨q, s, q1, q2, q3⟩ := mem_of_itemAfter hv h1
    exact clash_shift q2 q3 h2 ⟨k, mem_state hv q1 q2 k1, k2, k3⟩ h3
  have hsame : γ ++ strip r'.rhs = α ++ strip r.rhs → x = y → ∃ c, Clash g gr.sets c := by
    intro h1 h2
    subst h2
    rw [h1] at iB
    obtain ⟨q, s, q1, q2, q3⟩ := mem_of_itemAfter hv iA
    refine clash_reduce q2 q3 (mem_state hv q1 q2 iB) cA cB hla ?_
    intro hc
    simp only [Item.mk.injEq, Option.some.injEq] at hc
    obtain ⟨rfl, _, _⟩ := hc
    rw [hr] at hr'; cases hr'
    exact hne (List.append_cancel_right h1) rfl
  rcases List.append_eq_append_iff.mp he with ⟨a, h1, h2⟩ | ⟨a, h1, h2⟩
  · cases a with
    | nil => exact hsame (by simpa using h1.symm) (map_t_inj (by simpa using h2))
    | cons b a =>
      cases x with
      | nil => simp at h2
      | cons c x =>
        simp only [List.map_cons, List.cons_append, List.cons.injEq] at h2
        obtain ⟨rfl, _⟩ := h2
        rw [h1] at iA
        exact hshift iB cB (hcase c _ x rfl) iA
  · cases a with
    | nil => exact hsame (by simpa using h1) (map_t_inj (by simpa using h2.symm))
    | cons b a =>
      cases y with
      | nil => simp at h2
      | cons c y =>
        simp only [List.map_cons, List.cons_append, List.cons.injEq] at h2
        obtain ⟨rfl, _⟩ := h2
        rw [h1] at iB
        refine hshift iA cA ?_ iB
        rw [hla]
        exact hcase c _ y rfl

/-- the last replacement when the end of a form is rewritten to tokens -/
theorem last_handle {ss : List Sym} {v : List Nat} (hd : Derives g.rules ss v) : ∀ {φ : List Sym} {w : List Nat}, RightForm g (φ ++ strip ss ++ w.map Sym.t) →
    v.map Sym.t = strip ss ∨ ∃ (γ : List Sym) (r : Rule) (x : List Nat), r ∈ g.rules ∧ RightForm g (γ ++ .nt r.lhs :: x.map Sym.t) ∧ γ ++ strip r.rhs ++ x.map Sym.t = φ ++ (v ++ w).map Sym.t ∧ φ <+: γ := by
  induction hd with
  | nil => intro φ w _; exact .inl rfl
  | eps _ ih =>
    intro φ w h
    rcases ih (by simpa [strip] using h) with h | h
    · exact .inl (by simpa [strip] using h)
    · exact .inr h
  | @term a ss v _ ih =>
    intro φ w h
    rcases ih (φ := φ ++ [.t a]) (w := w) (by simpa [strip] using h) with h | ⟨γ, r, x, h1, h2, h3, h4⟩
    · refine .inl ?_
      rw [strip_cons (by simp), ← h]
      rfl
    · exact .inr ⟨γ, r, x, h1, h2, by simpa using h3, List.IsPrefix.trans (List.prefix_append _ _) h4⟩
  | @nonterm r ss u v hr _ hss ih1 _ =>
    intro φ w h
    rw [strip_cons (by simp)] at h
    have h2 := rightForm_derive hss (α := φ ++ [.nt r.lhs]) (w := w) (by simpa using h)
    have h2 : RightForm g (φ ++ .nt r.lhs :: (v ++ w).map Sym.t) := by simpa using h2
    have h3 := RightForm.step h2 hr
    refine .inr ?_
    rcases ih1 h3 with h4 | ⟨γ, r', x, h5, h6, h7, h8⟩
    · exact ⟨φ, r, v ++ w, hr, h2, by rw [← h4]; simp, List.prefix_refl _⟩
    · exact ⟨γ, r', x, h5, h6, by simpa using h7, h8⟩

/-- the rule of a completed item -/
theorem valid_completed {α : List Sym} {it : Item} (h : Valid g kind α it) (hc : it.after g = none) :
    ∃ i r α' w, it = ⟨some i, r.rhs.length, lookAt kind w⟩ ∧ g.rules[i]? = some r ∧ α = α' ++ strip r.rhs ∧ RightForm g (α' ++ .nt r.lhs :: w.map Sym.t) := by
  obtain ⟨rule, dot, la⟩ := it
  cases rule with
  | none =>
    obtain ⟨_, h2, _⟩ := h
    simp only at h2
    subst h2
    simp [Item.after, ruleRhs] at hc
  | some i =>
    obtain ⟨r, α', w, h1, h2, h3, h4, h5⟩ := h
    simp only at h2 h3 h5
    rw [after_get rfl h1, List.getElem?_eq_none_iff] at hc
    simp only at hc
    have : dot = r.rhs.length := by omega
    subst this
    exact ⟨i, r, α', w, by rw [h5], h1, by simpa using h3, h4⟩

/-- Two completed items with the same lookahead for one string violate the definition. -/
theorem not_lr_reduce (wf : g.WF) (hp : Productive g) (hel : EpsLeading g) {k : Nat} (hk : (kind.hasLa = true ∧ k = 1) ∨ k = 0) {α : List Sym} {it it' : Item}
    (h : ItemAfter g kind α it) (h' : ItemAfter g kind α it') (hc : it.after g = none) (hc' : it'.after g = none) (hla : it.la = it'.la) (hne : it ≠ it') : ¬ IsLR g k := by
  intro hlr
  obtain ⟨i, r, α', w, rfl, h1, h2, h3⟩ := valid_completed (valid_of_after wf hp hel h).1 hc
  obtain ⟨j, r', γ', x, rfl, h1', h2', h3'⟩ := valid_completed (valid_of_after wf hp hel h').1 hc'
  simp only at hla
  have htake : w.take k = x.take k := by
    rcases hk with ⟨hk, rfl⟩ | rfl
    · exact (lookAt_take hk w x).mp hla
    · simp
  obtain ⟨rfl, rfl⟩ := hlr α' γ' i j r r' w x x h1 h1' h3 h3' (by rw [← h2, ← h2']) htake
  rw [h1] at h1'; cases h1'
  exact hne (by rw [hla])

/-- A completed item and a token its lookahead does not tell apart violate the definition; without lookahead, also a completed item of a rule that is not empty and a
non-terminal. -/
theorem not_lr_shift (wf : g.WF) (hp : Productive g) (hel : EpsLeading g) {k : Nat} (hk : (kind.hasLa = true ∧ k = 1) ∨ k = 0) {α : List Sym} {it it' : Item} {X : Sym}
    (h : ItemAfter g kind α it) (h' : ItemAfter g kind α it') (hc : it.after g = none) (hX : it'.after g = some X) (hrule : it'.rule ≠ none)
    (hla : it.la = none ∨ it.la = some X) (hne : kind.hasLa = false → ∀ r ∈ g.rules, strip r.rhs ≠ []) : ¬ IsLR g k := by
  intro hlr
  obtain ⟨i, r, α', w, rfl, h1, h2, h3⟩ := valid_completed (valid_of_after wf hp hel h).1 hc
  obtain ⟨hv', hl'⟩ := valid_of_after wf hp hel h'
  obtain ⟨rule, d, la⟩ := it'
  cases rule with
  | none => exact absurd rfl hrule
  | some j =>
    obtain ⟨r', γ', x, g1, g2, g3, g4, _⟩ := hv'
    rw [after_get rfl g1] at hX
    simp only at hX g2 g3
    have hrm := List.mem_of_getElem? g1
    have hform := RightForm.step g4 hrm
    have e : strip r'.rhs = strip (r'.rhs.take d) ++ strip (r'.rhs.drop d) := by rw [← strip_append, List.take_append_drop]
    have hlen : α'.length ≤ α.length := by rw [h2]; simp
    -- the symbol is not an epsilon and not the end marker
    have hXe : X ≠ .eps := by
      rintro rfl
      refine hel r' hrm ?_
      refine List.mem_of_getElem? (i := d - leadingEps r'.rhs) ?_
      rw [List.getElem?_drop, ← hX]
      congr 1
      have := hl' j r' rfl g1
      simp only at this
      omega
    cases X with
    | eps => exact absurd rfl hXe
    | eof => exact wf.no_eof r' hrm (List.mem_of_getElem? hX)
    | t c =>
      rw [lr_drop_of_get hX, strip_cons (by simp)] at e
      rw [e] at hform
      obtain ⟨v, hv⟩ := derives_some wf hp (strip (r'.rhs.drop (d + 1))) (strip_drop_declared wf hrm _)
      have hv := derives_strip hv
      have htake : w.take k = (c :: (v ++ x)).take k := by
        rcases hk with ⟨hk, rfl⟩ | rfl
        · refine (lookAt_take hk w _).mp ?_
          rcases hla with hla | hla
          · simp [lookAt, hk] at hla
          · simp only at hla
            rw [hla]
            simp [lookAt, hk, nextSym]
        · simp
      rcases last_handle hv (φ := α ++ [.t c]) (w := x) (by rw [g3]; simpa using hform) with hv' | ⟨γ, r2, x2, l1, l2, l3, l4⟩
      · obtain ⟨rfl, rfl⟩ := hlr α' γ' i j r r' w x (c :: (v ++ x)) h1 g1 h3 g4 (by rw [← h2, g3, e, ← hv']; simp) htake
        rw [h1] at g1; cases g1
        have := h2.symm.trans g3
        rw [e] at this
        simpa using this
      · obtain ⟨j2, hj2⟩ := List.mem_iff_getElem?.mp l1
        obtain ⟨rfl, rfl⟩ := hlr α' γ i j2 r r2 w x2 (c :: (v ++ x)) h1 hj2 h3 l2 (by rw [l3, ← h2]; simp) htake
        have := l4.length_le
        simp at this
        omega
    | nt C =>
      have hk0 : kind.hasLa = false := by
        cases hh : kind.hasLa with
        | false => rfl
        | true =>
          rcases hla with hla | hla
          · simp [lookAt, hh] at hla
          · exfalso
            simp only [lookAt, hh, if_true, Option.some.injEq] at hla
            cases w <;> simp [nextSym] at hla
      rcases hk with ⟨hk, _⟩ | rfl
      · rw [hk] at hk0; cases hk0
      · obtain ⟨v, hv⟩ := derives_some wf hp (strip (r'.rhs.drop d)) (strip_drop_declared wf hrm _)
        have hv := derives_strip hv
        rw [e] at hform
        rcases last_handle hv (φ := α) (w := x) (by rw [g3]; simpa using hform) with hv' | ⟨γ, r2, x2, l1, l2, l3, l4⟩
        · rw [lr_drop_of_get hX, strip_cons (by simp)] at hv'
          cases v <;> simp at hv'
        · obtain ⟨j2, hj2⟩ := List.mem_iff_getElem?.mp l1
          obtain ⟨rfl, rfl⟩ := hlr α' γ i j2 r r2 w x2 (v ++ x) h1 hj2 h3 l2 (by rw [l3, ← h2]) (by simp)
          have h5 := l4.length_le
          rw [h2] at h5
          have h6 := hne hk0 r (List.mem_of_getElem? h1)
          have : 0 < (strip r.rhs).length := List.length_pos_iff.mpr h6
          simp at h5
          omega

end Verif
