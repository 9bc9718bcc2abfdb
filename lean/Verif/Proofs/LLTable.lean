import Verif.Spec.LL
import Verif.Proofs.Follow

/-! # The LL(1) table -/

set_option autoImplicit false

namespace Verif

theorem predictsFirst_iff {g : Grammar} {r : Rule} {x : Sym} (hx : x.isTerm) : PredictsFirst g r x ↔ FirstIn g.rules x r.rhs := by
  constructor
  · rintro ⟨β, h⟩
    exact (firstIn_strip hx).mp (firstIn_back hx h .here)
  · exact firstIn_rewrites hx

theorem predictsFollow_iff {g : Grammar} {r : Rule} {x : Sym} (hx : x.isTerm) (he : ∃ E, g.entry = .nt E) :
    PredictsFollow g r x ↔ Nul g.rules r.rhs ∧ FollowIn g x r.lhs := by
  unfold PredictsFollow
  rw [followIn_iff hx he]
  refine and_congr_left (fun _ => ⟨fun h => nul_strip.mp (nul_back h .nil), nul_rewrites⟩)

/-- a symbol that may be a column of the table -/
def Column (x : Sym) : Prop := x = .eof ∨ ∃ a, x = .t a ∧ a + 1 < u16Size

theorem Column.isTerm {x : Sym} (h : Column x) : x.isTerm := by
  rcases h with rfl | ⟨a, rfl, _⟩ <;> trivial

theorem insert_spec (table : LLTable) (A : Nat) {x : Sym} (hx : Column x) (p : List Sym) :
    (∃ prev, table.getProduction A x = some prev ∧ table.insert A x p = .error (.conflict A x p prev)) ∨
    (table.getProduction A x = none ∧ ∃ table', table.insert A x p = .ok table' ∧
      ∀ B y, y.isTerm → LLTable.getProduction table' B y = if B = A ∧ y = x then some p else table.getProduction B y) := by
  rcases hx with rfl | ⟨a, rfl, ha⟩
  · simp only [LLTable.getProduction, LLTable.insert, llTerminal, Bind.bind, Except.bind, LLTable.checkInsert]
    cases h : mget? (⟨A, none⟩ : LLKey) table with
    | some prev => exact .inl ⟨prev, rfl, rfl⟩
    | none =>
      refine .inr ⟨rfl, _, rfl, ?_⟩
      intro B y hy
      cases y with
      | eps => exact hy.elim
      | nt _ => exact hy.elim
      | eof => simp only [mget?_minsert, LLKey.mk.injEq, and_true]
      | t b => simp [mget?_minsert]
  · simp only [LLTable.getProduction, LLTable.insert, llTerminal, if_pos ha, Bind.bind, Except.bind, LLTable.checkInsert]
    cases h : mget? (⟨A, some (a + 1)⟩ : LLKey) table with
    | some prev => exact .inl ⟨prev, rfl, rfl⟩
    | none =>
      refine .inr ⟨rfl, _, rfl, ?_⟩
      intro B y hy
      cases y with
      | eps => exact hy.elim
      | nt _ => exact hy.elim
      | eof => simp [mget?_minsert]
      | t b => simp only [mget?_minsert, LLKey.mk.injEq, Option.some.injEq, Nat.add_right_cancel_iff, Sym.t.injEq]

/-- the two outcomes of inserting a set: a conflict, or a table with the new entries -/
def InsertOutcome (r : Rule) (ss : List Sym) (table : LLTable) : Prop :=
    (∃ x prev, x ∈ ss ∧ x.isTerm ∧ table.getProduction r.lhs x = some prev ∧ llInsertAll r ss table = .error (.conflict r.lhs x r.rhs prev)) ∨
    ((∀ x ∈ ss, x.isTerm → table.getProduction r.lhs x = none) ∧ ∃ table', llInsertAll r ss table = .ok table' ∧
      ∀ B y, y.isTerm → LLTable.getProduction table' B y = if B = r.lhs ∧ y ∈ ss then some r.rhs else table.getProduction B y)

theorem insertAll_spec (r : Rule) : ∀ (ss : List Sym), ss.Nodup → (∀ x ∈ ss, x ≠ .eps → (∀ B, x ≠ .nt B) → Column x) → ∀ table : LLTable,
    InsertOutcome r ss table := by
  intro ss
  induction ss with
  | nil => intro _ _ table; exact .inr ⟨by simp, table, rfl, by simp⟩
  | cons s ss ih =>
    intro hnd hc table
    obtain ⟨hns, hnd⟩ := List.nodup_cons.mp hnd
    have hc' : ∀ x ∈ ss, x ≠ .eps → (∀ B, x ≠ .nt B) → Column x := fun x hx => hc x (List.mem_cons_of_mem _ hx)
    -- symbols that are skipped
    have skip : ¬ s.isTerm → llInsertAll r (s :: ss) table = llInsertAll r ss table → InsertOutcome r (s :: ss) table := by
      intro hs he
      unfold InsertOutcome
      rw [he]
      rcases ih hnd hc' table with ⟨x, prev, h1, h2, h3, h4⟩ | ⟨h1, table', h2, h3⟩
      · exact Or.inl ⟨x, prev, List.mem_cons_of_mem _ h1, h2, h3, h4⟩
      · refine Or.inr ⟨?_, table', h2, ?_⟩
        · intro x hx hx'
          rcases List.mem_cons.mp hx with rfl | hx
          · exact absurd hx' hs
          · exact h1 x hx hx'
        · intro B y hy
          rw [h3 B y hy]
          have : y ∈ s :: ss ↔ y ∈ ss := by
            rw [List.mem_cons]
            exact ⟨fun h => h.resolve_left (by rintro rfl; exact hs hy), .inr⟩
          simp only [this]
    have ins : Column s → llInsertAll r (s :: ss) table = (table.insert r.lhs s r.rhs >>= llInsertAll r ss) → InsertOutcome r (s :: ss) table := by
      intro hs he
      unfold InsertOutcome
      rw [he]
      rcases insert_spec table r.lhs hs r.rhs with ⟨prev, h1, h2⟩ | ⟨h1, t1, h2, h3⟩
      · exact Or.inl ⟨s, prev, List.mem_cons_self, hs.isTerm, h1, by rw [h2]; rfl⟩
      · rw [h2]
        have hsame : ∀ x ∈ ss, x.isTerm → LLTable.getProduction t1 r.lhs x = table.getProduction r.lhs x := by
          intro x hx hx'
          rw [h3 _ _ hx', if_neg]
          rintro ⟨_, rfl⟩
          exact hns hx
        rcases ih hnd hc' t1 with ⟨x, prev, g1, g2, g3, g4⟩ | ⟨g1, t2, g2, g3⟩
        · exact Or.inl ⟨x, prev, List.mem_cons_of_mem _ g1, g2, by rw [← hsame x g1 g2]; exact g3, g4⟩
        · refine Or.inr ⟨?_, t2, g2, ?_⟩
          · intro x hx hx'
            rcases List.mem_cons.mp hx with rfl | hx
            · exact h1
            · rw [← hsame x hx hx']; exact g1 x hx hx'
          · intro B y hy
            rw [g3 B y hy, h3 B y hy]
            simp only [List.mem_cons]
            by_cases hB : B = r.lhs
            · by_cases hy1 : y ∈ ss
              · simp [hB, hy1]
              · by_cases hy2 : y = s
                · simp [hB, hy1, hy2]
                · simp [hB, hy1, hy2]
            · simp [hB]
    cases s with
    | eps => exact skip (fun h => h) rfl
    | nt B => exact skip (fun h => h) rfl
    | eof => exact ins (.inl rfl) rfl
    | t a => exact ins (hc _ List.mem_cons_self (by simp) (by simp)) rfl

/-- predicted by the FIRST part / the FOLLOW part (structural form) -/
def PF (g : Grammar) (r : Rule) (x : Sym) : Prop := FirstIn g.rules x r.rhs
def PO (g : Grammar) (r : Rule) (x : Sym) : Prop := Nul g.rules r.rhs ∧ FollowIn g x r.lhs

theorem universe_column {g : Grammar} (ht : TokensFit g) (wf : g.WF) {x : Sym} (h : x ∈ symUniverse g) (hx : x ≠ .eps) : Column x := by
  simp only [symUniverse, List.mem_cons] at h
  rcases h with h | h | h
  · exact absurd h hx
  · exact .inl h
  · obtain ⟨a, rfl⟩ := wf.ts x h
    exact .inr ⟨a, rfl, ht a h⟩

theorem llRule_spec {g : Grammar} (wf : g.WF) (hne : NoEmptyRhs g) (ht : TokensFit g) {fs fo : SymSets} (hf : FirstExact g fs) (hfo : FollowExact g fo)
    {r : Rule} (hr : r ∈ g.rules) (table : LLTable) :
    (∃ x prev, x.isTerm ∧ llRule fs fo table r = .error (.conflict r.lhs x r.rhs prev) ∧
      (((PF g r x ∨ PO g r x) ∧ table.getProduction r.lhs x = some prev) ∨ (r.rhs = prev ∧ PF g r x ∧ PO g r x))) ∨
    (∃ table', llRule fs fo table r = .ok table' ∧ (∀ x, x.isTerm → PF g r x ∨ PO g r x → table.getProduction r.lhs x = none) ∧
      (∀ x, x.isTerm → ¬ (PF g r x ∧ PO g r x)) ∧
      ∀ B y p, y.isTerm → (LLTable.getProduction table' B y = some p ↔
        (B = r.lhs ∧ p = r.rhs ∧ (PF g r y ∨ PO g r y)) ∨ table.getProduction B y = some p)) := by
  obtain ⟨f, f1, f2, f3, f4, f5⟩ := hf.ofSeq (wf.nt_declared r hr)
  have hfc : ∀ x ∈ f, x ≠ .eps → (∀ B, x ≠ .nt B) → Column x := by
    intro x hx he hn
    have hxt : x.isTerm := by
      cases x with
      | eps => exact absurd rfl he
      | nt B => exact absurd rfl (hn B)
      | eof => trivial
      | t a => trivial
    exact universe_column ht wf (firstBy_universe hf.good (wf.t_declared r hr) ((hf.firstBy hxt).mpr ((f3 x hxt).mp hx))) he
  have hstart : llRule fs fo table r = (llInsertAll r f table >>= fun table =>
      if f.contains .eps then
        match mget? (Sym.nt r.lhs) fo with
        | none => .error .panic
        | some set => llInsertAll r set table
      else .ok table) := by
    unfold llRule
    rw [f1]
    rfl
  rw [hstart]
  rcases insertAll_spec r f f2.nodup hfc table with ⟨x, prev, g1, g2, g3, g4⟩ | ⟨g1, t1, g2, g3⟩
  · exact .inl ⟨x, prev, g2, by rw [g4]; rfl, .inl ⟨.inl ((f3 x g2).mp g1), g3⟩⟩
  · rw [res_bind_eq g2]
    by_cases hn : Nul g.rules r.rhs
    · rw [if_pos (by simpa using f4.mpr ⟨hne r hr, hn⟩)]
      obtain ⟨set, hset⟩ := Option.isSome_iff_exists.mp ((hfo.good.keys (.nt r.lhs)).mpr (wf.lhs_declared r hr))
      simp only [hset]
      have hin : ∀ x, x.isTerm → (x ∈ set ↔ PO g r x) := by
        intro x hx
        rw [PO, ← hfo.term _ x hx]
        exact ⟨fun h => ⟨hn, set, hset, h⟩, by rintro ⟨_, s, h1, h2⟩; rw [hset] at h1; simp at h1; exact h1 ▸ h2⟩
      have hsc : ∀ x ∈ set, x ≠ .eps → (∀ B, x ≠ .nt B) → Column x := fun x hx he _ =>
        universe_column ht wf ((hfo.good.sets _ _ hset).2 hx) he
      rcases insertAll_spec r set (hfo.good.sets _ _ hset).1.nodup hsc t1 with ⟨x, prev, k1, k2, k3, k4⟩ | ⟨k1, t2, k2, k3⟩
      · refine .inl ⟨x, prev, k2, k4, ?_⟩
        rw [g3 _ _ k2] at k3
        by_cases hxf : x ∈ f
        · rw [if_pos ⟨rfl, hxf⟩] at k3
          simp at k3
          exact .inr ⟨k3, (f3 x k2).mp hxf, (hin x k2).mp k1⟩
        · rw [if_neg (fun h => hxf h.2)] at k3
          exact .inl ⟨.inr ((hin x k2).mp k1), k3⟩
      · refine .inr ⟨t2, k2, ?_, ?_, ?_⟩
        · rintro x hx (h | h)
          · exact g1 x ((f3 x hx).mpr h) hx
          · have := k1 x ((hin x hx).mpr h) hx
            rw [g3 _ _ hx] at this
            split at this
            · simp at this
            · exact this
        · rintro x hx ⟨h1, h2⟩
          have := k1 x ((hin x hx).mpr h2) hx
          rw [g3 _ _ hx, if_pos ⟨rfl, (f3 x hx).mpr h1⟩] at this
          simp at this
        · intro B y p hy
          have hcomm : (r.rhs = p) ↔ (p = r.rhs) := ⟨Eq.symm, Eq.symm⟩
          have hold : ∀ q, B = r.lhs → PF g r y ∨ PO g r y → table.getProduction B y = some q → False := by
            rintro q rfl (h | h) hq
            · have := g1 y ((f3 y hy).mpr h) hy
              rw [this] at hq; simp at hq
            · have := k1 y ((hin y hy).mpr h) hy
              rw [g3 _ _ hy] at this
              split at this
              · simp at this
              · rw [this] at hq; simp at hq
          rw [k3 B y hy, g3 B y hy]
          by_cases hB : B = r.lhs
          · by_cases h1 : y ∈ set
            · rw [if_pos ⟨hB, h1⟩]
              have h2 := (hin y hy).mp h1
              constructor
              · intro h; simp at h; exact .inl ⟨hB, h.symm, .inr h2⟩
              · rintro (⟨_, rfl, _⟩ | h)
                · rfl
                · exact (hold p hB (.inr h2) h).elim
            · rw [if_neg (fun h => h1 h.2)]
              by_cases h2 : y ∈ f
              · rw [if_pos ⟨hB, h2⟩]
                have h3 := (f3 y hy).mp h2
                constructor
                · intro h; simp at h; exact .inl ⟨hB, h.symm, .inl h3⟩
                · rintro (⟨_, rfl, _⟩ | h)
                  · rfl
                  · exact (hold p hB (.inl h3) h).elim
              · rw [if_neg (fun h => h2 h.2)]
                constructor
                · exact .inr
                · rintro (⟨_, _, h | h⟩ | h)
                  · exact absurd ((f3 y hy).mpr h) h2
                  · exact absurd ((hin y hy).mpr h) h1
                  · exact h
          · rw [if_neg (fun h => hB h.1), if_neg (fun h => hB h.1)]
            constructor
            · exact .inr
            · rintro (⟨h, _⟩ | h)
              · exact absurd h hB
              · exact h
    · rw [if_neg (by simpa using fun h => hn (f4.mp h).2)]
      refine .inr ⟨t1, rfl, ?_, fun x _ h => hn h.2.1, ?_⟩
      · rintro x hx (h | h)
        · exact g1 x ((f3 x hx).mpr h) hx
        · exact absurd h.1 hn
      · intro B y p hy
        rw [g3 B y hy]
        by_cases hc : B = r.lhs ∧ y ∈ f
        · rw [if_pos hc]
          have h3 := (f3 y hy).mp hc.2
          constructor
          · intro h; simp at h; exact .inl ⟨hc.1, h.symm, .inl h3⟩
          · rintro (⟨_, rfl, _⟩ | h)
            · rfl
            · rw [hc.1, g1 y hc.2 hy] at h; simp at h
        · rw [if_neg hc]
          constructor
          · exact .inr
          · rintro (⟨h1, _, h | h⟩ | h)
            · exact absurd ⟨h1, (f3 y hy).mpr h⟩ hc
            · exact absurd h.1 hn
            · exact h

/-- what the table says after some rules -/
structure TableFor (g : Grammar) (pre : List Rule) (table : LLTable) : Prop where
  entries : ∀ B y p, y.isTerm → (LLTable.getProduction table B y = some p ↔ ∃ r ∈ pre, r.lhs = B ∧ r.rhs = p ∧ (PF g r y ∨ PO g r y))
  disjoint : pre.Pairwise (fun r r' => r.lhs = r'.lhs → ∀ x : Sym, x.isTerm → ¬ ((PF g r x ∨ PO g r x) ∧ (PF g r' x ∨ PO g r' x)))
  once : ∀ r ∈ pre, ∀ x : Sym, x.isTerm → ¬ (PF g r x ∧ PO g r x)

theorem llFold_spec {g : Grammar} (wf : g.WF) (hne : NoEmptyRhs g) (ht : TokensFit g) {fs fo : SymSets} (hf : FirstExact g fs) (hfo : FollowExact g fo) :
    ∀ (suf pre : List Rule) (table : LLTable), g.rules = pre ++ suf → TableFor g pre table →
    (∃ table', suf.foldlM (llRule fs fo) table = .ok table' ∧ TableFor g g.rules table') ∨
    (∃ A x p prev, suf.foldlM (llRule fs fo) table = .error (.conflict A x p prev) ∧ x.isTerm ∧
      ∃ pre' r post, g.rules = pre' ++ r :: post ∧ r.lhs = A ∧ r.rhs = p ∧
        (((PF g r x ∨ PO g r x) ∧ ∃ r' ∈ pre', r'.lhs = A ∧ r'.rhs = prev ∧ (PF g r' x ∨ PO g r' x)) ∨ (p = prev ∧ PF g r x ∧ PO g r x))) := by
  intro suf
  induction suf with
  | nil => intro pre table he h; simp at he; exact .inl ⟨table, rfl, he ▸ h⟩
  | cons r suf ih =>
    intro pre table he h
    have hr : r ∈ g.rules := by rw [he]; simp
    rw [List.foldlM_cons]
    rcases llRule_spec wf hne ht hf hfo hr table with ⟨x, prev, h1, h2, h3⟩ | ⟨t1, h1, h2, h3, h4⟩
    · refine .inr ⟨r.lhs, x, r.rhs, prev, by rw [h2]; rfl, h1, pre, r, suf, he, rfl, rfl, ?_⟩
      rcases h3 with ⟨h3, h4⟩ | h3
      · exact .inl ⟨h3, (h.entries _ _ _ h1).mp h4⟩
      · exact .inr h3
    · rw [res_bind_eq h1]
      refine ih (pre ++ [r]) t1 (by simp [he]) ⟨?_, ?_, ?_⟩
      · intro B y p hy
        rw [h4 B y p hy, h.entries B y p hy]
        constructor
        · rintro (⟨rfl, rfl, h5⟩ | ⟨r', h5, h6⟩)
          · exact ⟨r, by simp, rfl, rfl, h5⟩
          · exact ⟨r', by simp [h5], h6⟩
        · rintro ⟨r', h5, h6, h7, h8⟩
          rcases List.mem_append.mp h5 with h5 | h5
          · exact .inr ⟨r', h5, h6, h7, h8⟩
          · simp at h5; subst h5
            exact .inl ⟨h6.symm, h7.symm, h8⟩
      · rw [List.pairwise_append]
        refine ⟨h.disjoint, by simp, ?_⟩
        intro r' hr' r'' hr'' hl x hx ⟨h5, h6⟩
        simp at hr''; subst hr''
        have h7 := h2 x hx h6
        have h8 := (h.entries r''.lhs x r'.rhs hx).mpr ⟨r', hr', hl, rfl, h5⟩
        rw [h7] at h8; simp at h8
      · intro r' hr'
        rcases List.mem_append.mp hr' with h5 | h5
        · exact h.once r' h5
        · simp at h5; subst h5; exact h3

theorem llGenerate_spec {g : Grammar} (wf : g.WF) (hne : NoEmptyRhs g) (ht : TokensFit g) :
    (∃ table, TableFor g g.rules table ∧ ∀ fuel, g.nonTerminals.length * (g.terminals.length + 2) < fuel → llGenerateTable g fuel = .ok table) ∨
    (∃ A x p prev, x.isTerm ∧ (∃ pre' r post, g.rules = pre' ++ r :: post ∧ r.lhs = A ∧ r.rhs = p ∧
        (((PF g r x ∨ PO g r x) ∧ ∃ r' ∈ pre', r'.lhs = A ∧ r'.rhs = prev ∧ (PF g r' x ∨ PO g r' x)) ∨ (p = prev ∧ PF g r x ∧ PO g r x))) ∧
      ∀ fuel, g.nonTerminals.length * (g.terminals.length + 2) < fuel → llGenerateTable g fuel = .error (.conflict A x p prev)) := by
  obtain ⟨fs, hf, hf'⟩ := computeFirstSets_spec wf hne
  obtain ⟨fo, hfo, hfo'⟩ := computeFollowSets_spec wf hf
  have hrun : ∀ fuel, g.nonTerminals.length * (g.terminals.length + 2) < fuel → llGenerateTable g fuel = g.rules.foldlM (llRule fs fo) [] := by
    intro fuel h
    unfold llGenerateTable
    rw [hf' fuel h]
    show (liftRes (computeFollowSets g fs fuel) >>= _) = _
    rw [hfo' fuel h]
    rfl
  have h0 : TableFor g [] [] := ⟨by intro B y p hy; cases y <;> simp [LLTable.getProduction, mget?], by simp, by simp⟩
  rcases llFold_spec wf hne ht hf hfo g.rules [] [] rfl h0 with ⟨table, h1, h2⟩ | ⟨A, x, p, prev, h1, h2, h3⟩
  · exact .inl ⟨table, h2, fun fuel h => by rw [hrun fuel h, h1]⟩
  · exact .inr ⟨A, x, p, prev, h2, h3, fun fuel h => by rw [hrun fuel h, h1]⟩

end Verif
