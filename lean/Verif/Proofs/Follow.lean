import Verif.Model.LL
import Verif.Proofs.First

/-! # FOLLOW sets -/

set_option autoImplicit false

namespace Verif

/-- a sequence looked at by the FOLLOW computation, with what may be concluded from it -/
structure SeqOk (g : Grammar) (lhs : Option Nat) (ss : List Sym) : Prop where
  nts : ∀ A, Sym.nt A ∈ ss → Sym.nt A ∈ g.nonTerminals
  ts : ∀ a, Sym.t a ∈ ss → Sym.t a ∈ g.terminals
  lhsDecl : ∀ B, lhs = some B → Sym.nt B ∈ g.nonTerminals
  noneOk : lhs = none → ∀ α A β, ss = α ++ .nt A :: β → ¬ Nul g.rules β
  ctx : ∀ α A β x, ss = α ++ .nt A :: β → x.isTerm → FirstIn g.rules x β → FollowIn g x A
  up : ∀ α A β x B, ss = α ++ .nt A :: β → lhs = some B → Nul g.rules β → FollowIn g x B → FollowIn g x A

theorem SeqOk.tail {g : Grammar} {lhs : Option Nat} {s : Sym} {ss : List Sym} (h : SeqOk g lhs (s :: ss)) : SeqOk g lhs ss where
  nts A hA := h.nts A (List.mem_cons_of_mem _ hA)
  ts a ha := h.ts a (List.mem_cons_of_mem _ ha)
  lhsDecl := h.lhsDecl
  noneOk hl α A β he := h.noneOk hl (s :: α) A β (by rw [he]; rfl)
  ctx α A β x he := h.ctx (s :: α) A β x (by rw [he]; rfl)
  up α A β x B he := h.up (s :: α) A β x B (by rw [he]; rfl)

/-- every element is justified -/
def FollowSound (g : Grammar) (fo : SymSets) : Prop := ∀ A x, InSet fo A x → x.isTerm ∧ FollowIn g x A

/-- closed under one sequence -/
def FollowClosed (g : Grammar) (fo : SymSets) (lhs : Option Nat) (ss : List Sym) : Prop :=
  ∀ α A β, ss = α ++ .nt A :: β →
    (∀ x, x.isTerm → FirstIn g.rules x β → InSet fo A x) ∧ (Nul g.rules β → ∀ B, lhs = some B → ∀ x, InSet fo B x → InSet fo A x)

theorem followClosed_cons {g : Grammar} {fo : SymSets} {lhs : Option Nat} {s : Sym} {ss : List Sym} (h : FollowClosed g fo lhs ss)
    (hs : ∀ A, s = .nt A → (∀ x, x.isTerm → FirstIn g.rules x ss → InSet fo A x) ∧
      (Nul g.rules ss → ∀ B, lhs = some B → ∀ x, InSet fo B x → InSet fo A x)) : FollowClosed g fo lhs (s :: ss) := by
  intro α A β he
  cases α with
  | nil => simp at he; obtain ⟨h1, rfl⟩ := he; exact hs A h1
  | cons a α => simp at he; exact h α A β he.2

theorem followOfRemainder_spec {g : Grammar} {fs fo : SymSets} (hf : FirstExact g fs) (hg : GoodSets g.nonTerminals (symUniverse g) fo)
    {lhs : Option Nat} {A : Nat} {ss : List Sym} (ho : SeqOk g lhs (.nt A :: ss)) (hsnd : FollowSound g fo) :
    ∃ out, followOfRemainder lhs ss fs fo = .ok out ∧ out ⊆ symUniverse g ∧
      (∀ x, x ∈ out ↔ (x.isTerm ∧ FirstIn g.rules x ss) ∨ (Nul g.rules ss ∧ ∃ B, lhs = some B ∧ InSet fo B x)) := by
  obtain ⟨f, f1, f2, f3, f4, f5⟩ := hf.ofSeq ho.tail.nts
  have hcond : (f.contains .eps ∨ ss.isEmpty) ↔ Nul g.rules ss := by
    simp only [List.contains_iff_mem, f4]
    cases ss with
    | nil => simp; exact .nil
    | cons a ss => simp
  have hfm : ∀ x, (x ≠ .eps ∧ x ∈ f) ↔ (x.isTerm ∧ FirstIn g.rules x ss) := by
    intro x
    constructor
    · rintro ⟨h1, h2⟩
      have : x.isTerm := by
        cases x with
        | eps => exact absurd rfl h1
        | nt B => exact (f5 B h2).elim
        | eof => trivial
        | t a => trivial
      exact ⟨this, (f3 x this).mp h2⟩
    · rintro ⟨h1, h2⟩
      exact ⟨by rintro rfl; exact h1, (f3 x h1).mpr h2⟩
  -- the starting set
  have hstart : ∃ res, (if f.contains .eps ∨ ss.isEmpty then
      match lhs with
      | none => .error .panic
      | some A => match mget? (Sym.nt A) fo with
        | none => .error .panic
        | some set => .ok set
    else (.ok [] : Res (List Sym))) = .ok res ∧ SSorted res ∧ res ⊆ symUniverse g ∧ ∀ x, x ∈ res ↔ Nul g.rules ss ∧ ∃ B, lhs = some B ∧ InSet fo B x := by
    by_cases hn : Nul g.rules ss
    · rw [if_pos (hcond.mpr hn)]
      cases hl : lhs with
      | none => exact absurd hn (ho.noneOk hl [] A ss rfl)
      | some B =>
        obtain ⟨set, hset⟩ := Option.isSome_iff_exists.mp ((hg.keys (.nt B)).mpr (ho.lhsDecl B hl))
        simp only [hset]
        refine ⟨set, rfl, (hg.sets _ _ hset).1, (hg.sets _ _ hset).2, ?_⟩
        intro x
        constructor
        · intro h; exact ⟨hn, B, rfl, set, hset, h⟩
        · rintro ⟨_, B', h1, s, h2, h3⟩
          simp at h1; subst h1
          rw [hset] at h2; simp at h2; exact h2 ▸ h3
    · rw [if_neg (fun h => hn (hcond.mp h))]
      exact ⟨[], rfl, by simp [SSorted], by simp, by simp [hn]⟩
  obtain ⟨res, r1, r2, r3, r4⟩ := hstart
  obtain ⟨i1, i2⟩ := insertNonEps_spec f res r2
  refine ⟨insertNonEps res f, ?_, ?_, ?_⟩
  · unfold followOfRemainder
    rw [res_bind_eq f1]
    exact res_bind_ok.mpr ⟨res, r1, rfl⟩
  · intro x hx
    rcases (i2 x).mp hx with h | ⟨h1, h2⟩
    · exact r3 h
    · have h3 := ((hfm x).mp ⟨h1, h2⟩)
      exact firstBy_universe hf.good (fun a ha => ho.tail.ts a ha) ((hf.firstBy h3.1).mpr h3.2)
  · intro x
    rw [i2, r4, hfm]
    exact Or.comm

theorem followPositions_spec {g : Grammar} {fs : SymSets} (hf : FirstExact g fs) (lhs : Option Nat) : ∀ (ss : List Sym), SeqOk g lhs ss →
    ∀ st : SymSets × Bool, GoodSets g.nonTerminals (symUniverse g) st.1 → FollowSound g st.1 →
    ∃ st', followPositions lhs fs ss st = .ok st' ∧ GoodSets g.nonTerminals (symUniverse g) st'.1 ∧ FollowSound g st'.1 ∧ Prog st st' ∧
      (st'.2 = false → FollowClosed g st.1 lhs ss) := by
  intro ss
  induction ss with
  | nil => intro _ st hg hs; exact ⟨st, rfl, hg, hs, .refl _, fun _ α A β he => by simp at he⟩
  | cons s ss ih =>
    intro ho st hg hs
    have other : (∀ A, s ≠ .nt A) → followPositions lhs fs (s :: ss) st = followPositions lhs fs ss st →
        ∃ st', followPositions lhs fs (s :: ss) st = .ok st' ∧ GoodSets g.nonTerminals (symUniverse g) st'.1 ∧ FollowSound g st'.1 ∧ Prog st st' ∧
          (st'.2 = false → FollowClosed g st.1 lhs (s :: ss)) := by
      intro hne he
      obtain ⟨st', s1, s2, s3, s4, s5⟩ := ih ho.tail st hg hs
      exact ⟨st', by rw [he]; exact s1, s2, s3, s4, fun h => followClosed_cons (s5 h) (fun A hA => absurd hA (hne A))⟩
    cases s with
    | eps => exact other (by simp) rfl
    | eof => exact other (by simp) rfl
    | t a => exact other (by simp) rfl
    | nt A =>
      obtain ⟨f, f1, f2, f3⟩ := followOfRemainder_spec hf hg ho hs
      obtain ⟨set, hset⟩ := Option.isSome_iff_exists.mp ((hg.keys (.nt A)).mpr (ho.nts A List.mem_cons_self))
      obtain ⟨a1, a2, a3, a4⟩ := addSet_prog hg hset f2
      have hs1 : FollowSound g (minsert (Sym.nt A) (insertTracked f (set, st.2)).1 st.1) := by
        rintro B x ⟨s, h1, h2⟩
        rw [a3] at h1
        split at h1
        · rename_i e
          simp at h1 e
          subst h1; subst e
          rcases (a4 x).mp h2 with h | h
          · exact hs _ x ⟨set, hset, h⟩
          · rcases (f3 x).mp h with ⟨h3, h4⟩ | ⟨h3, B', h4, h5⟩
            · exact ⟨h3, ho.ctx [] B ss x rfl h3 h4⟩
            · obtain ⟨h6, h7⟩ := hs B' x h5
              exact ⟨h6, ho.up [] B ss x B' rfl h4 h3 h7⟩
        · exact hs B x ⟨s, h1, h2⟩
      obtain ⟨st', s1, s2, s3, s4, s5⟩ := ih ho.tail (minsert (Sym.nt A) (insertTracked f (set, st.2)).1 st.1, (insertTracked f (set, st.2)).2) a1 hs1
      refine ⟨st', ?_, s2, s3, a2.trans s4, ?_⟩
      · rw [followPositions, res_bind_eq f1, hset]
        exact s1
      · intro h
        have h1 : (insertTracked f (set, st.2)).2 = false := by
          cases hb : (insertTracked f (set, st.2)).2 with
          | false => rfl
          | true => rw [s4.flag hb] at h; simp at h
        have e1 := a2.none h1
        simp only at e1
        have hc := s5 h
        simp only [e1] at hc a3
        refine followClosed_cons hc ?_
        intro A' hA'
        simp at hA'
        subst hA'
        have key : ∀ x, x ∈ f → InSet st.1 A x := fun x hx => ⟨_, by rw [a3]; simp, (a4 x).mpr (.inr hx)⟩
        refine ⟨fun x hx hfi => key x ((f3 x).mpr (.inl ⟨hx, hfi⟩)), fun hn B hB x hx => key x ((f3 x).mpr (.inr ⟨hn, B, hB, hx⟩))⟩

theorem followPass_spec {g : Grammar} {fs : SymSets} (hf : FirstExact g fs) : ∀ (qs : List (Option Nat × List Sym)), (∀ q ∈ qs, SeqOk g q.1 q.2) →
    ∀ st : SymSets × Bool, GoodSets g.nonTerminals (symUniverse g) st.1 → FollowSound g st.1 →
    ∃ st', qs.foldlM (fun st s => followPositions s.1 fs s.2 st) st = .ok st' ∧ GoodSets g.nonTerminals (symUniverse g) st'.1 ∧ FollowSound g st'.1 ∧
      Prog st st' ∧ (st'.2 = false → ∀ q ∈ qs, FollowClosed g st.1 q.1 q.2) := by
  intro qs
  induction qs with
  | nil => intro _ st hg hs; exact ⟨st, rfl, hg, hs, .refl _, by simp⟩
  | cons q qs ih =>
    intro hq st hg hs
    obtain ⟨st1, s1, s2, s3, s4, s5⟩ := followPositions_spec hf q.1 q.2 (hq q List.mem_cons_self) st hg hs
    obtain ⟨st2, t1, t2, t3, t4, t5⟩ := ih (fun r hr => hq r (List.mem_cons_of_mem _ hr)) st1 s2 s3
    refine ⟨st2, ?_, t2, t3, s4.trans t4, ?_⟩
    · rw [List.foldlM_cons, s1]; exact t1
    · intro h
      have hf1 : st1.2 = false := by
        cases hb : st1.2 with
        | false => rfl
        | true => rw [t4.flag hb] at h; simp at h
      have e1 := s4.none hf1
      intro q' hq'
      rcases List.mem_cons.mp hq' with rfl | hq'
      · exact s5 hf1
      · have := t5 h q' hq'
        rwa [e1] at this

theorem followSetsLoop_eq (g : Grammar) (fs : SymSets) : ∀ (fuel : Nat) (fo : SymSets),
    followSetsLoop g fs fuel fo = iterSets (fun fo => (followSequences g).foldlM (fun st s => followPositions s.1 fs s.2 st) (fo, false)) fuel fo := by
  intro fuel
  induction fuel with
  | zero => intro fo; rfl
  | succ n ih =>
    intro fo
    simp only [followSetsLoop, iterSets, ih]

theorem followSequences_ok {g : Grammar} (wf : g.WF) : ∀ q ∈ followSequences g, SeqOk g q.1 q.2 := by
  intro q hq
  rcases List.mem_cons.mp hq with rfl | hq
  · obtain ⟨E, hE, hd⟩ := wf.entry_declared
    have hsplit : ∀ α A β, [g.entry, Sym.eof] = α ++ .nt A :: β → g.entry = .nt A ∧ β = [.eof] := by
      intro α A β h
      cases α with
      | nil => simp at h; exact ⟨h.1, h.2.symm⟩
      | cons a α =>
        cases α with
        | nil => simp at h
        | cons b α => simp at h
    refine ⟨?_, ?_, by simp, ?_, ?_, by simp⟩
    · intro A hA; simp [hE] at hA; subst hA; exact hd
    · intro a ha; simp [hE] at ha
    · intro _ α A β h hn; rw [(hsplit α A β h).2] at hn; cases hn
    · intro α A β x h hx hf; obtain ⟨h1, rfl⟩ := hsplit α A β h; exact .entry h1 (firstIn_eof_sing hf)
  · obtain ⟨r, hr, rfl⟩ := List.mem_map.mp hq
    refine ⟨wf.nt_declared r hr, wf.t_declared r hr, ?_, by simp, ?_, ?_⟩
    · intro B hB; simp at hB; subst hB; exact wf.lhs_declared r hr
    · intro α A β x h hx hf; exact .ctx hr h hf
    · intro α A β x B h hB hn hfo; simp at hB; subst hB; exact .up hr h hn hfo

/-- what holds of the computed FOLLOW sets -/
structure FollowExact (g : Grammar) (fo : SymSets) : Prop where
  good : GoodSets g.nonTerminals (symUniverse g) fo
  term : ∀ A x, x.isTerm → (InSet fo A x ↔ FollowIn g x A)
  isTerm : ∀ A x, InSet fo A x → x.isTerm

theorem computeFollowSets_spec {g : Grammar} (wf : g.WF) {fs : SymSets} (hf : FirstExact g fs) :
    ∃ fo, FollowExact g fo ∧ ∀ fuel, g.nonTerminals.length * (g.terminals.length + 2) < fuel → computeFollowSets g fs fuel = .ok fo := by
  obtain ⟨e1, e2⟩ := emptySets_good g (symUniverse g)
  have hs0 : FollowSound g (emptySets g) := by
    rintro A x ⟨s, h1, h2⟩
    rw [e2 _ _ h1] at h2; simp at h2
  have hU : (symUniverse g).length = g.terminals.length + 2 := by simp [symUniverse]
  obtain ⟨fo, ⟨o1, o2⟩, o3, o4⟩ := iterSets_total
    (body := fun fo => (followSequences g).foldlM (fun st s => followPositions s.1 fs s.2 st) (fo, false))
    (Inv := fun fo => GoodSets g.nonTerminals (symUniverse g) fo ∧ FollowSound g fo) (B := g.nonTerminals.length * (symUniverse g).length)
    (fun fo h => h.1.bound) (fun fo h => by
      obtain ⟨st', s1, s2, s3, s4, _⟩ := followPass_spec hf _ (followSequences_ok wf) (fo, false) h.1 h.2
      exact ⟨st', s1, ⟨s2, s3⟩, s4⟩) (g.nonTerminals.length * (symUniverse g).length) (emptySets g) ⟨e1, hs0⟩ (by omega)
  have hc : ∀ q ∈ followSequences g, FollowClosed g fo q.1 q.2 := by
    obtain ⟨st', s1, s2, s3, s4, s5⟩ := followPass_spec hf _ (followSequences_ok wf) (fo, false) o1 o2
    rw [o3] at s1
    simp at s1
    subst s1
    exact s5 rfl
  refine ⟨fo, ⟨o1, ?_, fun A x h => (o2 A x h).1⟩, ?_⟩
  · intro A x hx
    refine ⟨fun h => (o2 A x h).2, fun h => ?_⟩
    induction h with
    | entry h1 h2 =>
      subst h2
      exact (hc _ List.mem_cons_self [] _ [.eof] (by simp [h1])).1 _ trivial .here
    | @ctx r α β A hr he hfi =>
      exact (hc (some r.lhs, r.rhs) (List.mem_cons_of_mem _ (List.mem_map.mpr ⟨r, hr, rfl⟩)) α A β he).1 x hx hfi
    | @up r α β A hr he hn _ ih =>
      exact (hc (some r.lhs, r.rhs) (List.mem_cons_of_mem _ (List.mem_map.mpr ⟨r, hr, rfl⟩)) α A β he).2 hn r.lhs rfl x ih
  · intro fuel hf
    rw [computeFollowSets, followSetsLoop_eq]
    exact o4 fuel (by rw [hU]; exact hf)

end Verif
