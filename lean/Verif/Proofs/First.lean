import Verif.Proofs.SymSets
import Verif.Proofs.FirstIn

/-! # FIRST sets -/

set_option autoImplicit false

namespace Verif

/-- `x` is in the set of `A` -/
def InSet (fs : SymSets) (A : Nat) (x : Sym) : Prop := ∃ set, mget? (Sym.nt A) fs = some set ∧ x ∈ set

/-- nullability of a sequence according to computed sets -/
def NulBy (fs : SymSets) : List Sym → Prop
  | [] => True
  | .eps :: ss => NulBy fs ss
  | .nt A :: ss => InSet fs A .eps ∧ NulBy fs ss
  | _ :: _ => False

/-- first symbols of a sequence according to computed sets -/
def FirstBy (fs : SymSets) (x : Sym) : List Sym → Prop
  | [] => False
  | .eps :: ss => FirstBy fs x ss
  | .nt A :: ss => InSet fs A x ∨ (InSet fs A .eps ∧ FirstBy fs x ss)
  | s :: _ => x = s

theorem insertNonEps_spec : ∀ (ss res : List Sym), SSorted res →
    SSorted (insertNonEps res ss) ∧ ∀ x, x ∈ insertNonEps res ss ↔ x ∈ res ∨ (x ≠ .eps ∧ x ∈ ss) := by
  intro ss
  induction ss with
  | nil => intro res h; simp [insertNonEps, h]
  | cons s ss ih =>
    intro res h
    rw [insertNonEps]
    have hs : SSorted (if s ≠ .eps then sinsert s res else res) := by split <;> [exact sinsert_sorted h; exact h]
    obtain ⟨h1, h2⟩ := ih _ hs
    refine ⟨h1, fun x => ?_⟩
    rw [h2]
    split
    · rename_i hne
      rw [mem_sinsert, List.mem_cons]
      constructor
      · rintro ((rfl | h) | ⟨h, h'⟩)
        · exact .inr ⟨hne, .inl rfl⟩
        · exact .inl h
        · exact .inr ⟨h, .inr h'⟩
      · rintro (h | ⟨h, rfl | h'⟩)
        · exact .inl (.inr h)
        · exact .inl (.inl rfl)
        · exact .inr ⟨h, h'⟩
    · rename_i he
      simp at he
      subst he
      rw [List.mem_cons]
      constructor
      · rintro (h | ⟨h, h'⟩)
        · exact .inl h
        · exact .inr ⟨h, .inr h'⟩
      · rintro (h | ⟨h, rfl | h'⟩)
        · exact .inl h
        · exact absurd rfl h
        · exact .inr ⟨h, h'⟩

/-- all non-terminals of the sequence have a set -/
def HasSets (fs : SymSets) (ss : List Sym) : Prop := ∀ A, Sym.nt A ∈ ss → ∃ set, mget? (Sym.nt A) fs = some set

theorem firstLoop_spec (fs : SymSets) : ∀ (ss res : List Sym), SSorted res → HasSets fs ss →
    ∃ out, firstLoop fs res ss = .ok out ∧ SSorted out ∧
      (∀ x, x ≠ .eps → (x ∈ out ↔ x ∈ res ∨ FirstBy fs x ss)) ∧ (.eps ∈ out ↔ .eps ∈ res ∨ (ss ≠ [] ∧ NulBy fs ss)) := by
  intro ss
  induction ss with
  | nil => intro res h _; exact ⟨res, rfl, h, by simp [FirstBy], by simp⟩
  | cons s ss ih =>
    intro res h hs
    have hs' : HasSets fs ss := fun A hA => hs A (List.mem_cons_of_mem _ hA)
    -- the end of both skipping cases
    have cont : ∀ res', SSorted res' → ∃ out, firstLoop fs (if ss.isEmpty then sinsert .eps res' else res') ss = .ok out ∧ SSorted out ∧
        (∀ x, x ≠ .eps → (x ∈ out ↔ x ∈ res' ∨ FirstBy fs x ss)) ∧ (.eps ∈ out ↔ .eps ∈ res' ∨ NulBy fs ss) := by
      intro res' h'
      obtain ⟨out, o1, o2, o3, o4⟩ := ih (if ss.isEmpty then sinsert .eps res' else res') (by split <;> [exact sinsert_sorted h'; exact h']) hs'
      refine ⟨out, o1, o2, ?_, ?_⟩
      · intro x hx
        rw [o3 x hx]
        split
        · rw [mem_sinsert]; simp [hx]
        · rfl
      · rw [o4]
        cases ss with
        | nil => simp [NulBy, mem_sinsert]
        | cons a ss => simp
    cases s with
    | eof =>
      refine ⟨sinsert .eof res, rfl, sinsert_sorted h, ?_, ?_⟩
      · intro x hx; rw [mem_sinsert]; simp only [FirstBy]; exact Or.comm
      · rw [mem_sinsert]; simp [NulBy]
    | t a =>
      refine ⟨sinsert (.t a) res, rfl, sinsert_sorted h, ?_, ?_⟩
      · intro x hx; rw [mem_sinsert]; simp only [FirstBy]; exact Or.comm
      · rw [mem_sinsert]; simp [NulBy]
    | eps =>
      obtain ⟨out, o1, o2, o3, o4⟩ := cont res h
      exact ⟨out, o1, o2, o3, by rw [o4]; simp [NulBy]⟩
    | nt A =>
      obtain ⟨set, hset⟩ := hs A List.mem_cons_self
      obtain ⟨i1, i2⟩ := insertNonEps_spec set res h
      rw [firstLoop, hset]
      simp only
      have hin : ∀ x, InSet fs A x ↔ x ∈ set := fun x => ⟨by rintro ⟨s, h1, h2⟩; rw [hset] at h1; simp at h1; exact h1 ▸ h2, fun h => ⟨set, hset, h⟩⟩
      by_cases he : Sym.eps ∈ set
      · rw [if_pos (by simpa using he)]
        obtain ⟨out, o1, o2, o3, o4⟩ := cont _ i1
        refine ⟨out, o1, o2, ?_, ?_⟩
        · intro x hx
          rw [o3 x hx, i2]
          simp only [FirstBy, hin, he, hx, ne_eq, not_false_eq_true, true_and, or_assoc]
        · rw [o4, i2]
          simp [NulBy, hin, he]
      · rw [if_neg (by simpa using he)]
        refine ⟨_, rfl, i1, ?_, ?_⟩
        · intro x hx
          rw [i2]
          simp [FirstBy, hin, he, hx]
        · rw [i2]; simp [NulBy, hin, he]

theorem firstOfSeq_spec {fs : SymSets} {ss : List Sym} (hs : HasSets fs ss) :
    ∃ out, firstOfSeq ss fs = .ok out ∧ SSorted out ∧ (∀ x, x ≠ .eps → (x ∈ out ↔ FirstBy fs x ss)) ∧ (.eps ∈ out ↔ ss ≠ [] ∧ NulBy fs ss) := by
  obtain ⟨out, o1, o2, o3, o4⟩ := firstLoop_spec fs ss [] (by simp [SSorted]) hs
  exact ⟨out, o1, o2, fun x hx => by rw [o3 x hx]; simp, by rw [o4]; simp⟩

/-! ## The loop -/

/-- a loop that repeats a pass until the pass reports no change -/
def iterSets (body : SymSets → Res (SymSets × Bool)) : Nat → SymSets → Res SymSets
  | 0, _ => .error .fuel
  | fuel + 1, fs => do
    let (fs, any) ← body fs
    if any then iterSets body fuel fs else .ok fs

theorem iterSets_total {body : SymSets → Res (SymSets × Bool)} {Inv : SymSets → Prop} {B : Nat} (hB : ∀ fs, Inv fs → totalSize fs ≤ B)
    (hbody : ∀ fs, Inv fs → ∃ st', body fs = .ok st' ∧ Inv st'.1 ∧ Prog (fs, false) st') :
    ∀ (n : Nat) (fs : SymSets), Inv fs → B - totalSize fs ≤ n →
      ∃ out, Inv out ∧ body out = .ok (out, false) ∧ ∀ fuel, n < fuel → iterSets body fuel fs = .ok out := by
  intro n
  induction n with
  | zero =>
    intro fs hi hn
    obtain ⟨⟨fs', any⟩, h1, h2, h3⟩ := hbody fs hi
    cases hany : any with
    | false =>
      subst hany
      have := h3.none rfl
      simp only at this
      subst this
      refine ⟨fs', hi, h1, ?_⟩
      intro fuel hf
      obtain ⟨k, rfl⟩ : ∃ k, fuel = k + 1 := ⟨fuel - 1, by omega⟩
      simp [iterSets, h1, Bind.bind, Except.bind]
    | true =>
      subst hany
      rcases h3.some rfl with h | h
      · simp at h
      · have := hB _ h2; simp only at h this; omega
  | succ n ih =>
    intro fs hi hn
    obtain ⟨⟨fs', any⟩, h1, h2, h3⟩ := hbody fs hi
    cases hany : any with
    | false =>
      subst hany
      have := h3.none rfl
      simp only at this
      subst this
      refine ⟨fs', hi, h1, ?_⟩
      intro fuel hf
      obtain ⟨k, rfl⟩ : ∃ k, fuel = k + 1 := ⟨fuel - 1, by omega⟩
      simp [iterSets, h1, Bind.bind, Except.bind]
    | true =>
      subst hany
      rcases h3.some rfl with h | h
      · simp at h
      · simp only at h
        obtain ⟨out, g1, g2, g3⟩ := ih fs' h2 (by omega)
        refine ⟨out, g1, g2, ?_⟩
        intro fuel hf
        obtain ⟨k, rfl⟩ : ∃ k, fuel = k + 1 := ⟨fuel - 1, by omega⟩
        simp [iterSets, h1, Bind.bind, Except.bind, g3 k (by omega)]

/-! ## Soundness and closure -/

/-- the universe of set elements -/
def symUniverse (g : Grammar) : List Sym := .eps :: .eof :: g.terminals

/-- every element is justified -/
def FirstSound (g : Grammar) (fs : SymSets) : Prop := ∀ A x, InSet fs A x → (x = .eps ∧ Nul g.rules [.nt A]) ∨ (x.isTerm ∧ FirstIn g.rules x [.nt A])

theorem nulBy_sound {g : Grammar} {fs : SymSets} (h : FirstSound g fs) {ss : List Sym} (hn : NulBy fs ss) : Nul g.rules ss := by
  induction ss with
  | nil => exact .nil
  | cons s ss ih =>
    cases s with
    | eof => exact hn.elim
    | t a => exact hn.elim
    | eps => exact .eps (ih hn)
    | nt A =>
      rcases h A .eps hn.1 with ⟨_, h1⟩ | ⟨h1, _⟩
      · have := nul_append.mpr ⟨h1, ih hn.2⟩; exact this
      · exact h1.elim

theorem firstBy_sound {g : Grammar} {fs : SymSets} (h : FirstSound g fs) {x : Sym} (hx : x ≠ .eps) {ss : List Sym} (hf : FirstBy fs x ss) :
    x.isTerm ∧ FirstIn g.rules x ss := by
  induction ss with
  | nil => exact hf.elim
  | cons s ss ih =>
    cases s with
    | eof => cases hf; exact ⟨trivial, .here⟩
    | t a => cases hf; exact ⟨trivial, .here⟩
    | eps => exact ⟨(ih hf).1, .eps (ih hf).2⟩
    | nt A =>
      rcases hf with hf | ⟨h1, h2⟩
      · rcases h A x hf with ⟨h1, _⟩ | ⟨h1, h2⟩
        · exact absurd h1 hx
        · exact ⟨h1, (firstIn_append (a := [.nt A]) h1).mpr (.inl h2)⟩
      · rcases h A .eps h1 with ⟨_, h3⟩ | ⟨h3, _⟩
        · exact ⟨(ih h2).1, (firstIn_append (a := [.nt A]) (ih h2).1).mpr (.inr ⟨h3, (ih h2).2⟩)⟩
        · exact h3.elim

theorem hasSets_rhs {g : Grammar} (wf : g.WF) {U : List Sym} {fs : SymSets} (hg : GoodSets g.nonTerminals U fs) {r : Rule} (hr : r ∈ g.rules) :
    HasSets fs r.rhs := fun A hA => by
  have := (hg.keys (.nt A)).mpr (wf.nt_declared r hr A hA)
  exact Option.isSome_iff_exists.mp this

theorem firstBy_universe {g : Grammar} {fs : SymSets} (hg : GoodSets g.nonTerminals (symUniverse g) fs) {x : Sym} {ss : List Sym}
    (hss : ∀ a, Sym.t a ∈ ss → Sym.t a ∈ g.terminals) (hf : FirstBy fs x ss) : x ∈ symUniverse g := by
  induction ss with
  | nil => exact hf.elim
  | cons s ss ih =>
    have ih := ih (fun a ha => hss a (List.mem_cons_of_mem _ ha))
    cases s with
    | eof => cases hf; simp [symUniverse]
    | t a => cases hf; simp only [symUniverse, List.mem_cons]; exact .inr (.inr (hss a List.mem_cons_self))
    | eps => exact ih hf
    | nt A =>
      rcases hf with ⟨set, h1, h2⟩ | ⟨_, h2⟩
      · exact (hg.sets _ _ h1).2 h2
      · exact ih h2

theorem firstStep_spec {g : Grammar} (wf : g.WF) {st : SymSets × Bool} (hg : GoodSets g.nonTerminals (symUniverse g) st.1) (hs : FirstSound g st.1)
    {r : Rule} (hr : r ∈ g.rules) :
    ∃ st', firstStep st r = .ok st' ∧ GoodSets g.nonTerminals (symUniverse g) st'.1 ∧ FirstSound g st'.1 ∧ Prog st st' ∧
      (∀ x, x ≠ .eps → FirstBy st.1 x r.rhs → InSet st'.1 r.lhs x) ∧ (r.rhs ≠ [] → NulBy st.1 r.rhs → InSet st'.1 r.lhs .eps) := by
  obtain ⟨f, f1, f2, f3, f4⟩ := firstOfSeq_spec (hasSets_rhs wf hg hr)
  obtain ⟨set, hset⟩ := Option.isSome_iff_exists.mp ((hg.keys (.nt r.lhs)).mpr (wf.lhs_declared r hr))
  have hfu : f ⊆ symUniverse g := by
    intro x hx
    by_cases he : x = .eps
    · subst he; simp [symUniverse]
    · exact firstBy_universe hg (wf.t_declared r hr) ((f3 x he).mp hx)
  obtain ⟨a1, a2, a3, a4⟩ := addSet_prog hg hset hfu
  refine ⟨_, ?_, a1, ?_, a2, ?_, ?_⟩
  · simp only [firstStep, f1, Bind.bind, Except.bind, hset]
  · rintro A x ⟨s, h1, h2⟩
    rw [a3] at h1
    split at h1
    · rename_i e
      simp at h1 e
      subst h1; subst e
      rcases (a4 x).mp h2 with h | h
      · exact hs _ x ⟨set, hset, h⟩
      · by_cases he : x = .eps
        · subst he
          have h5 := nulBy_sound hs (f4.mp h).2
          exact .inl ⟨rfl, .nt hr h5 .nil⟩
        · obtain ⟨h5, h6⟩ := firstBy_sound hs he ((f3 x he).mp h)
          exact .inr ⟨h5, .ntHere hr h6⟩
    · exact hs A x ⟨s, h1, h2⟩
  · intro x hx h
    exact ⟨_, by rw [a3]; simp, (a4 x).mpr (.inr ((f3 x hx).mpr h))⟩
  · intro h1 h2
    exact ⟨_, by rw [a3]; simp, (a4 _).mpr (.inr (f4.mpr ⟨h1, h2⟩))⟩

/-- what a set family closed under a rule is -/
def FirstClosed (fs : SymSets) (r : Rule) : Prop :=
  (∀ x, x ≠ .eps → FirstBy fs x r.rhs → InSet fs r.lhs x) ∧ (r.rhs ≠ [] → NulBy fs r.rhs → InSet fs r.lhs .eps)

theorem firstPass_spec {g : Grammar} (wf : g.WF) : ∀ (rs : List Rule), (∀ r ∈ rs, r ∈ g.rules) → ∀ st : SymSets × Bool,
    GoodSets g.nonTerminals (symUniverse g) st.1 → FirstSound g st.1 →
    ∃ st', rs.foldlM firstStep st = .ok st' ∧ GoodSets g.nonTerminals (symUniverse g) st'.1 ∧ FirstSound g st'.1 ∧ Prog st st' ∧
      (st'.2 = false → ∀ r ∈ rs, FirstClosed st.1 r) := by
  intro rs
  induction rs with
  | nil => intro _ st hg hs; exact ⟨st, rfl, hg, hs, .refl _, by simp⟩
  | cons r rs ih =>
    intro hrs st hg hs
    obtain ⟨st1, s1, s2, s3, s4, s5, s6⟩ := firstStep_spec wf hg hs (hrs r List.mem_cons_self)
    obtain ⟨st2, t1, t2, t3, t4, t5⟩ := ih (fun r hr => hrs r (List.mem_cons_of_mem _ hr)) st1 s2 s3
    refine ⟨st2, ?_, t2, t3, s4.trans t4, ?_⟩
    · rw [List.foldlM_cons, s1]; exact t1
    · intro hf
      have hf1 : st1.2 = false := by
        cases hb : st1.2 with
        | false => rfl
        | true => rw [t4.flag hb] at hf; simp at hf
      have e1 := s4.none hf1
      intro r' hr'
      rcases List.mem_cons.mp hr' with rfl | hr'
      · rw [e1] at s5 s6; exact ⟨s5, s6⟩
      · have := t5 hf r' hr'
        rwa [e1] at this

theorem firstSetsLoop_eq (g : Grammar) : ∀ (fuel : Nat) (fs : SymSets),
    firstSetsLoop g fuel fs = iterSets (fun fs => g.rules.foldlM firstStep (fs, false)) fuel fs := by
  intro fuel
  induction fuel with
  | zero => intro fs; rfl
  | succ n ih =>
    intro fs
    simp only [firstSetsLoop, iterSets, ih]

/-- what holds of the computed FIRST sets -/
structure FirstExact (g : Grammar) (fs : SymSets) : Prop where
  good : GoodSets g.nonTerminals (symUniverse g) fs
  eps : ∀ A, InSet fs A .eps ↔ Nul g.rules [.nt A]
  term : ∀ A x, x.isTerm → (InSet fs A x ↔ FirstIn g.rules x [.nt A])
  noNt : ∀ A B, ¬ InSet fs A (.nt B)

theorem closed_nul {g : Grammar} {fs : SymSets} (hne : NoEmptyRhs g) (hc : ∀ r ∈ g.rules, FirstClosed fs r) {ss : List Sym}
    (h : Nul g.rules ss) : NulBy fs ss := by
  induction h with
  | nil => trivial
  | eps _ ih => exact ih
  | nt hr _ _ ih1 ih2 => exact ⟨(hc _ hr).2 (hne _ hr) ih1, ih2⟩

theorem closed_first {g : Grammar} {fs : SymSets} (hne : NoEmptyRhs g) (hc : ∀ r ∈ g.rules, FirstClosed fs r) {x : Sym} (hx : x.isTerm)
    {ss : List Sym} (h : FirstIn g.rules x ss) : FirstBy fs x ss := by
  have hxe : x ≠ .eps := by rintro rfl; exact hx
  induction h with
  | here => cases x <;> first | exact hx.elim | rfl
  | eps _ ih => exact ih
  | ntHere hr _ ih => exact .inl ((hc _ hr).1 _ hxe ih)
  | ntSkip hr hn _ ih => exact .inr ⟨(hc _ hr).2 (hne _ hr) (closed_nul hne hc hn), ih⟩

theorem computeFirstSets_spec {g : Grammar} (wf : g.WF) (hne : NoEmptyRhs g) :
    ∃ fs, FirstExact g fs ∧ ∀ fuel, g.nonTerminals.length * (g.terminals.length + 2) < fuel → computeFirstSets g fuel = .ok fs := by
  obtain ⟨e1, e2⟩ := emptySets_good g (symUniverse g)
  have hs0 : FirstSound g (emptySets g) := by
    rintro A x ⟨s, h1, h2⟩
    rw [e2 _ _ h1] at h2; simp at h2
  have hU : (symUniverse g).length = g.terminals.length + 2 := by simp [symUniverse]
  obtain ⟨fs, ⟨o1, o2⟩, o3, o4⟩ := iterSets_total (body := fun fs => g.rules.foldlM firstStep (fs, false))
    (Inv := fun fs => GoodSets g.nonTerminals (symUniverse g) fs ∧ FirstSound g fs) (B := g.nonTerminals.length * (symUniverse g).length)
    (fun fs h => h.1.bound) (fun fs h => by
      obtain ⟨st', s1, s2, s3, s4, _⟩ := firstPass_spec wf g.rules (fun _ h => h) (fs, false) h.1 h.2
      exact ⟨st', s1, ⟨s2, s3⟩, s4⟩) (g.nonTerminals.length * (symUniverse g).length) (emptySets g) ⟨e1, hs0⟩ (by omega)
  have hc : ∀ r ∈ g.rules, FirstClosed fs r := by
    obtain ⟨st', s1, s2, s3, s4, s5⟩ := firstPass_spec wf g.rules (fun _ h => h) (fs, false) o1 o2
    rw [o3] at s1
    simp at s1
    subst s1
    exact s5 rfl
  refine ⟨fs, ⟨o1, ?_, ?_, ?_⟩, ?_⟩
  · intro A
    constructor
    · intro h
      rcases o2 A .eps h with ⟨_, h⟩ | ⟨h, _⟩
      · exact h
      · exact h.elim
    · intro h
      exact (closed_nul hne hc h).1
  · intro A x hx
    constructor
    · intro h
      rcases o2 A x h with ⟨h, _⟩ | ⟨_, h⟩
      · subst h; exact hx.elim
      · exact h
    · intro h
      rcases closed_first hne hc hx h with h | ⟨_, h⟩
      · exact h
      · exact h.elim
  · intro A B h
    rcases o2 A _ h with ⟨h, _⟩ | ⟨h, _⟩
    · simp at h
    · exact h
  · intro fuel hf
    rw [computeFirstSets, firstSetsLoop_eq]
    exact o4 fuel (by rw [hU]; exact hf)

/-- the sets of a sequence computed from exact sets -/
theorem FirstExact.nulBy {g : Grammar} {fs : SymSets} (h : FirstExact g fs) {ss : List Sym} : NulBy fs ss ↔ Nul g.rules ss := by
  induction ss with
  | nil => exact ⟨fun _ => .nil, fun _ => trivial⟩
  | cons s ss ih =>
    cases s with
    | eof => exact ⟨fun h => h.elim, fun h => by cases h⟩
    | t a => exact ⟨fun h => h.elim, fun h => by cases h⟩
    | eps => simp only [NulBy, ih]; exact ⟨.eps, fun h => by cases h; assumption⟩
    | nt A =>
      simp only [NulBy, ih, h.eps]
      exact (nul_append (a := [.nt A])).symm

theorem FirstExact.firstBy {g : Grammar} {fs : SymSets} (h : FirstExact g fs) {x : Sym} (hx : x.isTerm) {ss : List Sym} :
    FirstBy fs x ss ↔ FirstIn g.rules x ss := by
  induction ss with
  | nil => exact ⟨fun h => h.elim, fun h => by cases h⟩
  | cons s ss ih =>
    cases s with
    | eof => exact ⟨fun h => by cases h; exact .here, fun h => by cases h; rfl⟩
    | t a => exact ⟨fun h => by cases h; exact .here, fun h => by cases h; rfl⟩
    | eps =>
      simp only [FirstBy, ih]
      refine ⟨.eps, fun h => ?_⟩
      cases h with
      | here => exact hx.elim
      | eps h => exact h
    | nt A =>
      simp only [FirstBy, ih, h.eps, h.term A x hx]
      exact (firstIn_append (a := [.nt A]) hx).symm

theorem FirstExact.firstBy_isTerm {g : Grammar} {fs : SymSets} (h : FirstExact g fs) {x : Sym} (hx : x ≠ .eps) {ss : List Sym} (hf : FirstBy fs x ss) :
    x.isTerm := by
  induction ss with
  | nil => exact hf.elim
  | cons s ss ih =>
    cases s with
    | eof => cases hf; trivial
    | t a => cases hf; trivial
    | eps => exact ih hf
    | nt A =>
      rcases hf with hf | ⟨_, hf⟩
      · cases x with
        | eps => exact absurd rfl hx
        | eof => trivial
        | t a => trivial
        | nt B => exact (h.noNt A B hf).elim
      · exact ih hf

/-- the FIRST set of a sequence, from exact sets -/
theorem FirstExact.ofSeq {g : Grammar} {fs : SymSets} (h : FirstExact g fs) {ss : List Sym} (hs : ∀ A, Sym.nt A ∈ ss → Sym.nt A ∈ g.nonTerminals) :
    ∃ out, firstOfSeq ss fs = .ok out ∧ SSorted out ∧ (∀ x, x.isTerm → (x ∈ out ↔ FirstIn g.rules x ss)) ∧
      (.eps ∈ out ↔ ss ≠ [] ∧ Nul g.rules ss) ∧ (∀ B, Sym.nt B ∉ out) := by
  obtain ⟨out, o1, o2, o3, o4⟩ := firstOfSeq_spec (fs := fs) (ss := ss) (fun A hA => Option.isSome_iff_exists.mp ((h.good.keys _).mpr (hs A hA)))
  refine ⟨out, o1, o2, ?_, ?_, ?_⟩
  · intro x hx
    rw [o3 x (by rintro rfl; exact hx), h.firstBy hx]
  · rw [o4, h.nulBy]
  · intro B hB
    have := h.firstBy_isTerm (by simp) ((o3 (.nt B) (by simp)).mp hB)
    exact this

end Verif
