import Verif.Proofs.Alphabet
import Verif.Spec.Regex
import Verif.Spec.Automata

/-! Correctness of the NFA construction. -/

namespace Verif

/-! ### basic facts about extending automata -/

/-- `n'` extends `n` by intermediate nodes and edges -/
structure Ext (n n' : LexNfa) : Prop where
  nodes : ∃ ns, n'.graph.nodes = n.graph.nodes ++ ns ∧ ∀ x ∈ ns, ∀ s, x ≠ .accepting s
  edges : ∃ es, n'.graph.edges = n.graph.edges ++ es
  wf : n.WF → n'.WF

theorem Ext.refl (n : LexNfa) : Ext n n := ⟨⟨[], by simp⟩, ⟨[], by simp⟩, id⟩

theorem Ext.trans {a b c : LexNfa} (h1 : Ext a b) (h2 : Ext b c) : Ext a c := by
  obtain ⟨ns1, e1, g1⟩ := h1.nodes
  obtain ⟨ns2, e2, g2⟩ := h2.nodes
  obtain ⟨es1, f1⟩ := h1.edges
  obtain ⟨es2, f2⟩ := h2.edges
  refine ⟨⟨ns1 ++ ns2, by simp [e2, e1], ?_⟩, ⟨es1 ++ es2, by simp [f2, f1]⟩, fun h => h2.wf (h1.wf h)⟩
  intro x hx
  rcases List.mem_append.mp hx with h | h
  · exact g1 x h
  · exact g2 x h

theorem Ext.len {a b : LexNfa} (h : Ext a b) : a.graph.nodes.length ≤ b.graph.nodes.length := by
  obtain ⟨ns, e, _⟩ := h.nodes
  simp [e]

theorem Ext.mem {a b : LexNfa} (h : Ext a b) {e : Edge (NfaEdge Nat)} (he : e ∈ a.graph.edges) : e ∈ b.graph.edges := by
  obtain ⟨es, e'⟩ := h.edges
  simp [e', he]

theorem Ext.path {a b : LexNfa} (h : Ext a b) {q q' : Nat} {w : List Nat} (hp : a.Path q w q') : b.Path q w q' := by
  induction hp with
  | refl q => exact .refl q
  | eps he _ ih => exact .eps (h.mem he) ih
  | step he _ ih => exact .step (h.mem he) ih

theorem ext_addInter (n : LexNfa) : Ext n n.addIntermediateState.1 := by
  refine ⟨⟨[.intermediate n.intermediateCounter], rfl, by simp⟩, ⟨[], by simp [Nfa.addIntermediateState, Graph.addNode]⟩, ?_⟩
  intro h e he
  have := h e he
  simp [Nfa.addIntermediateState, Graph.addNode]
  omega

theorem ext_addEdge (n : LexNfa) {s d : Nat} (w : NfaEdge Nat) (hs : s < n.graph.nodes.length) (hd : d < n.graph.nodes.length) :
    Ext n { n with graph := n.graph.addEdge s d w } := by
  refine ⟨⟨[], by simp [Graph.addEdge]⟩, ⟨[⟨s, d, w⟩], rfl⟩, ?_⟩
  intro h e he
  rcases List.mem_append.mp he with h1 | h1
  · exact h e h1
  · simp at h1; subst h1; exact ⟨hs, hd⟩

@[simp] theorem addInter_len (n : LexNfa) :
    n.addIntermediateState.1.graph.nodes.length = n.graph.nodes.length + 1 := by
  simp [Nfa.addIntermediateState, Graph.addNode]

@[simp] theorem addInter_snd (n : LexNfa) : n.addIntermediateState.2 = n.graph.nodes.length := rfl

@[simp] theorem addInter_edges (n : LexNfa) : n.addIntermediateState.1.graph.edges = n.graph.edges := rfl

@[simp] theorem addEps_nodes (n : LexNfa) (s d : Nat) : (n.addEpsilonTransition s d).graph.nodes = n.graph.nodes := rfl

@[simp] theorem addEps_edges (n : LexNfa) (s d : Nat) :
    (n.addEpsilonTransition s d).graph.edges = n.graph.edges ++ [⟨s, d, .epsilon⟩] := rfl

@[simp] theorem addTrans_nodes (n : LexNfa) (s d t : Nat) : (n.addTransition s d t).graph.nodes = n.graph.nodes := rfl

@[simp] theorem addTrans_edges (n : LexNfa) (s d t : Nat) :
    (n.addTransition s d t).graph.edges = n.graph.edges ++ [⟨s, d, .transition t⟩] := rfl

theorem Nfa.Path.trans {σ τ : Type} {a : Nfa σ τ} {q q' q'' : Nat} {u v : List τ} (h1 : a.Path q u q') (h2 : a.Path q' v q'') :
    a.Path q (u ++ v) q'' := by
  induction h1 with
  | refl q => exact h2
  | eps he _ ih => exact .eps he (ih h2)
  | step he _ ih => exact .step he (ih h2)

/-! ### assignments of residual languages -/

/-- concatenation of languages -/
def Lang.cat (A B : Lang) : Lang := fun w => ∃ u v, w = u ++ v ∧ A u ∧ B v

/-- the edge respects the assignment of residual languages to nodes -/
def EdgeOk (al : Alphabet) (F : Nat → Lang) (e : Edge (NfaEdge Nat)) : Prop :=
  match e.weight with
  | .epsilon => ∀ v, F e.dst v → F e.src v
  | .transition i => ∀ c v, classOf al c = i → F e.dst v → F e.src (c :: v)

/-- every edge respects the assignment -/
def Closed (al : Alphabet) (n : LexNfa) (F : Nat → Lang) : Prop := ∀ e ∈ n.graph.edges, EdgeOk al F e

theorem Closed.path {al : Alphabet} {n : LexNfa} {F : Nat → Lang} (h : Closed al n F) {q q' : Nat} {ws : List Nat}
    (hp : n.Path q ws q') : ∀ w v, ws = w.map (classOf al) → F q' v → F q (w ++ v) := by
  induction hp with
  | refl q =>
    intro w v hw hv
    have : w = [] := by simpa using hw.symm
    subst this
    exact hv
  | eps he _ ih => intro w v hw hv; exact h _ he _ (ih w v hw hv)
  | step he _ ih =>
    intro w v hw hv
    cases w with
    | nil => simp at hw
    | cons c w =>
      simp only [List.map_cons, List.cons.injEq] at hw
      exact h _ he c _ hw.1.symm (ih w v hw.2 hv)

/-- change the assignment at one node -/
def upd (F : Nat → Lang) (q : Nat) (L : Lang) : Nat → Lang := fun x => if x = q then L else F x

@[simp] theorem upd_same (F : Nat → Lang) (q : Nat) (L : Lang) : upd F q L q = L := by simp [upd]
theorem upd_ne (F : Nat → Lang) {q x : Nat} (L : Lang) (h : x ≠ q) : upd F q L x = F x := by simp [upd, h]

theorem Closed.congr {al : Alphabet} {n : LexNfa} {F G : Nat → Lang} (hw : n.WF) (h : Closed al n F)
    (hfg : ∀ q < n.graph.nodes.length, G q = F q) : Closed al n G := by
  intro e he
  have h1 := hw e he
  have h2 := h e he
  unfold EdgeOk at *
  rw [hfg _ h1.1, hfg _ h1.2]
  exact h2

theorem Closed.addEps {al : Alphabet} {n : LexNfa} {F : Nat → Lang} (h : Closed al n F) {s d : Nat}
    (hsd : ∀ v, F d v → F s v) : Closed al (n.addEpsilonTransition s d) F := by
  intro e he
  rcases List.mem_append.mp he with h1 | h1
  · exact h e h1
  · simp at h1; subst h1; exact hsd

/-! ### the contract of a build call -/

/-- a build call for a pattern of language `L`; `C` is the part of `L` guaranteed to be accepted -/
structure Builds (al : Alphabet) (b : Builder) (L C : Lang) : Prop where
  ext : ∀ {s e n n'}, b s e n = .ok n' → s < n.graph.nodes.length → e < n.graph.nodes.length → Ext n n'
  complete : ∀ {s e n n'}, b s e n = .ok n' → s < n.graph.nodes.length → e < n.graph.nodes.length →
    ∀ w, C w → n'.Path s (w.map (classOf al)) e
  sound : ∀ {s e n n'}, b s e n = .ok n' → s < n.graph.nodes.length → e < n.graph.nodes.length → n.WF →
    ∀ F : Nat → Lang, Closed al n F → (∀ w, Lang.cat L (F e) w → F s w) →
    ∃ F' : Nat → Lang, (∀ q < n.graph.nodes.length, F' q = F q) ∧ Closed al n' F'

/-- transitions for a list of alphabet indices -/
theorem addTransitions_spec {al : Alphabet} (is : List Nat) (n : LexNfa) (s e : Nat) (hs : s < n.graph.nodes.length)
    (he : e < n.graph.nodes.length) :
    let n' := is.foldl (fun nfa i => nfa.addTransition s e i) n
    Ext n n' ∧ (∀ i ∈ is, (⟨s, e, .transition i⟩ : Edge (NfaEdge Nat)) ∈ n'.graph.edges) ∧
    (∀ F, Closed al n F → (∀ i ∈ is, ∀ c v, classOf al c = i → F e v → F s (c :: v)) → Closed al n' F) := by
  induction is generalizing n with
  | nil => exact ⟨Ext.refl n, by simp, fun F h _ => h⟩
  | cons i is ih =>
    have h1 := ext_addEdge n (.transition i) hs he
    obtain ⟨g1, g2, g3⟩ := ih (n.addTransition s e i) hs he
    refine ⟨h1.trans g1, ?_, ?_⟩
    · intro j hj
      rcases List.mem_cons.mp hj with rfl | hj
      · exact g1.mem (by simp)
      · exact g2 j hj
    · intro F hF hi
      refine g3 F ?_ (fun j hj => hi j (List.mem_cons_of_mem _ hj))
      intro ed hed
      rcases List.mem_append.mp hed with h | h
      · exact hF ed h
      · simp at h; subst h; exact hi i (by simp)

theorem mem_rangeIncl {a b i : Nat} : i ∈ rangeIncl a b ↔ a ≤ i ∧ i ≤ b := by
  simp only [rangeIncl, List.mem_map, List.mem_range]
  constructor
  · rintro ⟨x, hx, rfl⟩; omega
  · intro h; exact ⟨i - a, by omega, by omega⟩

/-- chars written in a pattern are ranges on their own -/
def NamedOk (al : Alphabet) (N : Char → Prop) : Prop := ∀ c, N c → (c.toNat, c.toNat) ∈ al.ranges

theorem range_index {al : Alphabet} (hg : al.Good) {c1 c2 d : Char} (h1 : (c1.toNat, c1.toNat) ∈ al.ranges)
    (h2 : (c2.toNat, c2.toNat) ∈ al.ranges) :
    (classOf al c1 ≤ classOf al d ∧ classOf al d ≤ classOf al c2) ↔ (c1.toNat ≤ d.toNat ∧ d.toNat ≤ c2.toNat) := by
  constructor
  · rintro ⟨g1, g2⟩
    constructor
    · rcases Nat.lt_or_ge d.toNat c1.toNat with h | h
      · have := hg.mono (Nat.le_of_lt h)
        have e := hg.singleton h1 (Nat.le_antisymm this g1)
        rw [e] at h; omega
      · exact h
    · rcases Nat.lt_or_ge c2.toNat d.toNat with h | h
      · have := hg.mono (Nat.le_of_lt h)
        have e := hg.singleton h2 (Nat.le_antisymm g2 this)
        rw [e] at h; omega
      · exact h
  · rintro ⟨g1, g2⟩
    exact ⟨hg.mono g1, hg.mono g2⟩

theorem charSetIndices_spec {al : Alphabet} (hg : al.Good) (xs : List Characters) (is : List Nat)
    (hn : NamedOk al (fun c => ∃ x ∈ xs, x.Names c)) :
    ∃ js, charSetIndices al xs is = .ok (some js) ∧
      ∀ d : Char, classOf al d ∈ js ↔ classOf al d ∈ is ∨ ∃ x ∈ xs, x.Has d := by
  induction xs generalizing is with
  | nil => exact ⟨is, rfl, by simp⟩
  | cons x xs ih =>
    have hn' : NamedOk al (fun c => ∃ x ∈ xs, x.Names c) := by
      rintro c ⟨y, hy, hc⟩
      exact hn c ⟨y, List.mem_cons_of_mem _ hy, hc⟩
    cases x with
    | single ch =>
      obtain ⟨js, h1, h2⟩ := ih (sinsert (classOf al ch) is) hn'
      have hch := hn ch ⟨.single ch, by simp, rfl⟩
      refine ⟨js, ?_, ?_⟩
      · simp only [charSetIndices, hg.findRange]
        exact h1
      · intro d
        rw [h2]
        have : classOf al d = classOf al ch ↔ d = ch := ⟨hg.singleton hch, fun h => h ▸ rfl⟩
        simp only [mem_sinsert, this, List.mem_cons, exists_eq_or_imp, Characters.Has]
        grind
    | range c1 c2 =>
      obtain ⟨js, h1, h2⟩ := ih ((rangeIncl (classOf al c1) (classOf al c2)).foldl (fun s i => sinsert i s) is) hn'
      have hc1 := hn c1 ⟨.range c1 c2, by simp, Or.inl rfl⟩
      have hc2 := hn c2 ⟨.range c1 c2, by simp, Or.inr rfl⟩
      refine ⟨js, ?_, ?_⟩
      · simp only [charSetIndices, hg.findRange]
        exact h1
      · intro d
        rw [h2]
        have hf : ∀ (l acc : List Nat) (y : Nat), y ∈ l.foldl (fun s i => sinsert i s) acc ↔ y ∈ acc ∨ y ∈ l := by
          intro l
          induction l with
          | nil => simp
          | cons a l ihl => intro acc y; simp only [List.foldl_cons, ihl, mem_sinsert, List.mem_cons]; grind
        rw [hf, mem_rangeIncl, range_index hg hc1 hc2]
        simp only [List.mem_cons, exists_eq_or_imp, Characters.Has]
        grind

/-- any builder that adds transitions exactly for the chars of a class -/
theorem builds_of_indices {al : Alphabet} (b : Builder) (P : Char → Prop)
    (h : ∀ s e n, ∃ is : List Nat, b s e n = .ok (is.foldl (fun nfa i => nfa.addTransition s e i) n) ∧
      ∀ d : Char, classOf al d ∈ is ↔ P d) :
    Builds al b (fun w => ∃ c, w = [c] ∧ P c) (fun w => ∃ c, w = [c] ∧ P c) where
  ext := by
    intro s e n n' hb hs he
    obtain ⟨is, h1, h2⟩ := h s e n
    rw [h1] at hb; cases hb
    exact (addTransitions_spec (al := al) is n s e hs he).1
  complete := by
    intro s e n n' hb hs he w ⟨c, hw, hc⟩
    obtain ⟨is, h1, h2⟩ := h s e n
    rw [h1] at hb; cases hb
    have := (addTransitions_spec (al := al) is n s e hs he).2.1 _ ((h2 c).mpr hc)
    subst hw
    exact .step this (.refl e)
  sound := by
    intro s e n n' hb hs he hw F hF hL
    obtain ⟨is, h1, h2⟩ := h s e n
    rw [h1] at hb; cases hb
    refine ⟨F, fun _ _ => rfl, (addTransitions_spec (al := al) is n s e hs he).2.2 F hF ?_⟩
    intro i hi c v hc hv
    subst hc
    exact hL _ ⟨[c], v, rfl, ⟨c, rfl, (h2 c).mp hi⟩, hv⟩

theorem builds_charSet {al : Alphabet} (hg : al.Good) (xs : List Characters) (neg : Bool)
    (hn : NamedOk al (fun c => ∃ x ∈ xs, x.Names c)) :
    Builds al (buildCharSet al xs neg) (Pattern.Matches (.charSet xs neg)) (Pattern.Matches (.charSet xs neg)) := by
  obtain ⟨js, h1, h2⟩ := charSetIndices_spec hg xs [] hn
  cases neg with
  | false =>
    have : Pattern.Matches (.charSet xs false) = (fun w => ∃ c, w = [c] ∧ ∃ x ∈ xs, x.Has c) := by
      simp [Pattern.Matches]
    rw [this]
    apply builds_of_indices
    intro s e n
    refine ⟨js, ?_, ?_⟩
    · simp only [buildCharSet, h1]; rfl
    · intro d; rw [h2]; simp
  | true =>
    have : Pattern.Matches (.charSet xs true) = (fun w => ∃ c, w = [c] ∧ ¬ ∃ x ∈ xs, x.Has c) := by
      simp [Pattern.Matches]
    rw [this]
    apply builds_of_indices
    intro s e n
    refine ⟨(List.range al.ranges.length).filter (fun i => ¬ i ∈ js), ?_, ?_⟩
    · simp only [buildCharSet, h1]; rfl
    · intro d
      have := h2 d
      simp only [List.mem_filter, List.mem_range, hg.classOf_lt d, true_and]
      simp only [List.not_mem_nil, false_or] at this
      simp only [this, decide_eq_true_eq]

theorem builds_char {al : Alphabet} (hg : al.Good) (x : Characters) (hn : NamedOk al x.Names) :
    Builds al (buildChar al x) (Pattern.Matches (.char x)) (Pattern.Matches (.char x)) := by
  have : Pattern.Matches (.char x) = (fun w => ∃ c, w = [c] ∧ x.Has c) := by
    simp [Pattern.Matches]
  rw [this]
  apply builds_of_indices
  intro s e n
  cases x with
  | single ch =>
    refine ⟨[classOf al ch], ?_, ?_⟩
    · simp only [buildChar, hg.findRange]; rfl
    · intro d
      have : classOf al d = classOf al ch ↔ d = ch :=
        ⟨hg.singleton (hn ch rfl), fun h => h ▸ rfl⟩
      simp [this, Characters.Has]
  | range c1 c2 =>
    refine ⟨rangeIncl (classOf al c1) (classOf al c2), ?_, ?_⟩
    · simp only [buildChar, hg.findRange]; rfl
    · intro d
      rw [mem_rangeIncl, range_index hg (hn c1 (Or.inl rfl)) (hn c2 (Or.inr rfl))]
      simp [Characters.Has]

/-! ### chains -/

/-- languages and completeness languages, one per builder -/
inductive BuildsAll (al : Alphabet) : List Builder → List Lang → List Lang → Prop
  | nil : BuildsAll al [] [] []
  | cons {b bs L Ls C Cs} : Builds al b L C → BuildsAll al bs Ls Cs → BuildsAll al (b :: bs) (L :: Ls) (C :: Cs)

/-- a chain of paths through the intermediate nodes -/
def PathChain (al : Alphabet) (n : LexNfa) : Nat → List Nat → Nat → List Lang → Prop
  | s, [], e, [C] => ∀ w, C w → n.Path s (w.map (classOf al)) e
  | s, i :: is, e, C :: Cs => (∀ w, C w → n.Path s (w.map (classOf al)) i) ∧ PathChain al n i is e Cs
  | _, _, _, _ => False

theorem PathChain.ext {al : Alphabet} {n n' : LexNfa} (h : Ext n n') {s : Nat} {is : List Nat} {e : Nat} {Cs : List Lang}
    (hp : PathChain al n s is e Cs) : PathChain al n' s is e Cs := by
  induction is generalizing s Cs with
  | nil =>
    match Cs, hp with
    | [C], hp => exact fun w hw => h.path (hp w hw)
  | cons i is ih =>
    match Cs, hp with
    | C :: Cs, hp => exact ⟨fun w hw => h.path (hp.1 w hw), ih hp.2⟩

/-- languages chosen for the intermediate nodes fit -/
def ChainOk : Lang → List Lang → List Lang → Lang → Prop
  | A, [L], [], E => ∀ w, Lang.cat L E w → A w
  | A, L :: Ls, G :: Gs, E => (∀ w, Lang.cat L G w → A w) ∧ ChainOk G Ls Gs E
  | _, _, _, _ => False

theorem chain_spec {al : Alphabet} {bs : List Builder} {Ls Cs : List Lang} (hb : BuildsAll al bs Ls Cs) :
    ∀ {s e n n' is}, chainPatternIterator bs s e n = .ok (n', is) → s < n.graph.nodes.length →
      e < n.graph.nodes.length →
      Ext n n' ∧ (∀ i ∈ is, i < n'.graph.nodes.length) ∧ PathChain al n' s is e Cs ∧
      (n.WF → ∀ F Gs, Closed al n F → ChainOk (F s) Ls Gs (F e) →
        ∃ F', (∀ q < n.graph.nodes.length, F' q = F q) ∧ Closed al n' F' ∧ is.map F' = Gs) := by
  induction hb with
  | nil => intro s e n n' is h; simp [chainPatternIterator] at h
  | @cons b bs L Ls C Cs hb hbs ih =>
    intro s e n n' is h hs he
    cases hbs with
    | nil =>
      simp only [chainPatternIterator] at h
      rcases hn : b s e n with err | n1
      · rw [hn] at h; cases h
      · rw [hn] at h
        cases h
        refine ⟨hb.ext hn hs he, by simp, hb.complete hn hs he, ?_⟩
        intro hw F Gs hF hok
        cases Gs with
        | nil =>
          obtain ⟨F', h1, h2⟩ := hb.sound hn hs he hw F hF hok
          exact ⟨F', h1, h2, rfl⟩
        | cons G Gs => simp [ChainOk] at hok
    | @cons b' bs' L' Ls' C' Cs' hb' hbs' =>
      simp only [chainPatternIterator] at h
      generalize hn0 : n.addIntermediateState = p0 at h
      obtain ⟨n0, i0⟩ := p0
      have e0 : n0 = n.addIntermediateState.1 := by rw [hn0]
      have ei : i0 = n.graph.nodes.length := by
        have : n.addIntermediateState.2 = i0 := by rw [hn0]
        rw [← this]; rfl
      have hx0 : Ext n n0 := e0 ▸ ext_addInter n
      have hl0 : n0.graph.nodes.length = n.graph.nodes.length + 1 := by rw [e0]; simp
      simp only at h
      rcases hn1 : b s i0 n0 with err | n1
      · rw [hn1] at h; cases h
      · rw [hn1] at h
        rcases hn2 : chainPatternIterator (b' :: bs') i0 e n1 with err | ⟨n2, is2⟩
        · simp only [bind, Except.bind, hn2] at h; cases h
        · simp only [bind, Except.bind, hn2] at h
          cases h
          have hx1 : Ext n0 n1 := hb.ext hn1 (by omega) (by omega)
          have hl1 := hx1.len
          obtain ⟨g1, g2, g3, g4⟩ := ih hn2 (by omega) (by omega)
          have hl2 := g1.len
          refine ⟨(hx0.trans hx1).trans g1, ?_, ?_, ?_⟩
          · intro i hi
            rcases List.mem_cons.mp hi with rfl | hi
            · omega
            · exact g2 i hi
          · exact ⟨fun w hw => g1.path (hb.complete hn1 (by omega) (by omega) w hw), g3⟩
          · intro hw F Gs hF hok
            cases Gs with
            | nil => simp [ChainOk] at hok
            | cons G Gs =>
              obtain ⟨hok1, hok2⟩ := hok
              have hF0 : Closed al n0 (upd F i0 G) := by
                have : Closed al n (upd F i0 G) := hF.congr hw (fun q hq => upd_ne F G (by omega))
                intro ed hed
                apply this ed
                rw [e0] at hed
                exact hed
              obtain ⟨F1, a1, a2⟩ := hb.sound hn1 (by omega) (by omega) (hx0.wf hw) (upd F i0 G) hF0 (by
                rw [upd_same, upd_ne F G (by omega)]
                exact hok1)
              have hFi : F1 i0 = G := by rw [a1 i0 (by omega), upd_same]
              have hFe : F1 e = F e := by rw [a1 e (by omega), upd_ne F G (by omega)]
              obtain ⟨F2, b1, b2, b3⟩ := g4 ((hx0.trans hx1).wf hw) F1 Gs a2 (by rw [hFi, hFe]; exact hok2)
              refine ⟨F2, ?_, b2, ?_⟩
              · intro q hq
                rw [b1 q (by omega), a1 q (by omega), upd_ne F G (by omega)]
              · simp only [List.map_cons, b3]
                rw [b1 i0 (by omega), hFi]

/-- the standard choice for intermediate nodes: what remains of the chain -/
def catAll : List Lang → Lang → Lang
  | [], E => E
  | L :: Ls, E => Lang.cat L (catAll Ls E)

/-- residual languages of a chain -/
def residuals : List Lang → Lang → List Lang
  | [], _ => []
  | [_], _ => []
  | _ :: Ls, E => catAll Ls E :: residuals Ls E

theorem chainOk_residuals {A E : Lang} {Ls : List Lang} (hne : Ls ≠ []) (h : ∀ w, catAll Ls E w → A w) :
    ChainOk A Ls (residuals Ls E) E := by
  induction Ls generalizing A with
  | nil => exact absurd rfl hne
  | cons L Ls ih =>
    cases Ls with
    | nil => exact h
    | cons L' Ls => exact ⟨h, ih (by simp) (fun w hw => hw)⟩

theorem BuildsAll.ne_nil {al : Alphabet} {bs : List Builder} {Ls Cs : List Lang} (h : BuildsAll al bs Ls Cs) (hne : bs ≠ []) :
    Ls ≠ [] := by
  cases h with
  | nil => exact absurd rfl hne
  | cons => simp

theorem PathChain.run {al : Alphabet} {n : LexNfa} {s : Nat} {is : List Nat} {e : Nat} {Cs : List Lang}
    (h : PathChain al n s is e Cs) {w : List Char} (hw : catAll Cs (fun v => v = []) w) :
    n.Path s (w.map (classOf al)) e := by
  induction is generalizing s Cs w with
  | nil =>
    match Cs, h with
    | [C], h =>
      obtain ⟨u, v, rfl, hu, rfl⟩ := hw
      simpa using h u hu
  | cons i is ih =>
    match Cs, h with
    | C :: Cs, h =>
      obtain ⟨u, v, rfl, hu, hv⟩ := hw
      rw [List.map_append]
      exact (h.1 u hu).trans (ih h.2 hv)

theorem builds_sequence {al : Alphabet} {bs : List Builder} {Ls Cs : List Lang} (hb : BuildsAll al bs Ls Cs) (hne : bs ≠ []) :
    Builds al (fun s e n => do let (n, _) ← chainPatternIterator bs s e n; .ok n)
      (catAll Ls (fun v => v = [])) (catAll Cs (fun v => v = [])) where
  ext := by
    intro s e n n' h hs he
    rcases hc : chainPatternIterator bs s e n with err | ⟨n1, is⟩
    · simp only [hc] at h; cases h
    · simp only [hc] at h; cases h
      exact (chain_spec hb hc hs he).1
  complete := by
    intro s e n n' h hs he w hw
    rcases hc : chainPatternIterator bs s e n with err | ⟨n1, is⟩
    · simp only [hc] at h; cases h
    · simp only [hc] at h; cases h
      exact (chain_spec hb hc hs he).2.2.1.run hw
  sound := by
    intro s e n n' h hs he hw F hF hL
    rcases hc : chainPatternIterator bs s e n with err | ⟨n1, is⟩
    · simp only [hc] at h; cases h
    · simp only [hc] at h; cases h
      obtain ⟨F', h1, h2, _⟩ := (chain_spec hb hc hs he).2.2.2 hw F (residuals Ls (F e)) hF (by
        apply chainOk_residuals (hb.ne_nil hne)
        intro w hw
        apply hL
        clear hb hL
        induction Ls generalizing w with
        | nil => exact ⟨[], w, rfl, rfl, hw⟩
        | cons L Ls ih =>
          obtain ⟨u, v, rfl, hu, hv⟩ := hw
          obtain ⟨u', v', rfl, hu', hv'⟩ := ih v hv
          exact ⟨u ++ u', v', by simp, ⟨u, u', rfl, hu, hu'⟩, hv'⟩)
      exact ⟨F', h1, h2⟩

/-! ### alternatives -/

/-- union of languages -/
def unionAll : List Lang → Lang
  | [] => fun _ => False
  | L :: Ls => fun w => L w ∨ unionAll Ls w

theorem builds_alternative {al : Alphabet} {bs : List Builder} {Ls Cs : List Lang} (hb : BuildsAll al bs Ls Cs) :
    Builds al (buildAlternative bs) (unionAll Ls) (unionAll Cs) := by
  have main : ∀ {s e n n'}, buildAlternative bs s e n = .ok n' → s < n.graph.nodes.length → e < n.graph.nodes.length →
      Ext n n' ∧ (∀ w, unionAll Cs w → n'.Path s (w.map (classOf al)) e) ∧
      (n.WF → ∀ F : Nat → Lang, Closed al n F → (∀ w, Lang.cat (unionAll Ls) (F e) w → F s w) →
        ∃ F' : Nat → Lang, (∀ q < n.graph.nodes.length, F' q = F q) ∧ Closed al n' F') := by
    induction hb with
    | nil =>
      intro s e n n' h hs he
      simp only [buildAlternative] at h
      cases h
      exact ⟨Ext.refl _, by simp [unionAll], fun _ F hF _ => ⟨F, fun _ _ => rfl, hF⟩⟩
    | @cons b bs L Ls C Cs hb hbs ih =>
      intro s e n n' h hs he
      simp only [buildAlternative, addInter_snd, addInter_len] at h
      generalize hn0 : n.addIntermediateState.1 = n0 at h
      have hx0 : Ext n n0 := hn0 ▸ ext_addInter n
      have hl0 : n0.graph.nodes.length = n.graph.nodes.length + 1 := by rw [← hn0]; simp
      have hed0 : n0.graph.edges = n.graph.edges := by rw [← hn0]; simp
      generalize hn1 : n0.addIntermediateState.1 = n1 at h
      have hx1 : Ext n0 n1 := hn1 ▸ ext_addInter n0
      have hl1 : n1.graph.nodes.length = n.graph.nodes.length + 2 := by rw [← hn1]; simp [hl0]
      have hed1 : n1.graph.edges = n.graph.edges := by rw [← hn1]; simp [hed0]
      rcases hn2 : b n.graph.nodes.length (n.graph.nodes.length + 1) n1 with err | n2
      · rw [hn2] at h; cases h
      · rw [hn2] at h
        simp only [bind, Except.bind] at h
        have hx2 : Ext n1 n2 := hb.ext hn2 (by omega) (by omega)
        have hl2 := hx2.len
        have hx3 : Ext n2 (n2.addEpsilonTransition s n.graph.nodes.length) := ext_addEdge n2 .epsilon (by omega) (by omega)
        have hx4 := ext_addEdge (n2.addEpsilonTransition s n.graph.nodes.length) (s := n.graph.nodes.length + 1) (d := e)
          .epsilon (by simp; omega) (by simp; omega)
        obtain ⟨g1, g2, g3⟩ := ih h (by simp; omega) (by simp; omega)
        refine ⟨((((hx0.trans hx1).trans hx2).trans hx3).trans hx4).trans g1, ?_, ?_⟩
        · intro w hw
          rcases hw with hw | hw
          · have p1 := hb.complete hn2 (by omega) (by omega) w hw
            have p2 := ((hx3.trans hx4).trans g1).path p1
            have e1 : (⟨s, n.graph.nodes.length, .epsilon⟩ : Edge (NfaEdge Nat)) ∈ n'.graph.edges :=
              (hx4.trans g1).mem (by simp)
            have e2 : (⟨n.graph.nodes.length + 1, e, .epsilon⟩ : Edge (NfaEdge Nat)) ∈ n'.graph.edges :=
              g1.mem (by simp)
            have := (Nfa.Path.eps e1 p2).trans (.eps e2 (.refl e))
            simpa using this
          · exact g2 w hw
        · intro hw F hF hL
          let F0 := upd (upd F (n.graph.nodes.length + 1) (F e)) n.graph.nodes.length (Lang.cat L (F e))
          have hF0 : ∀ q < n.graph.nodes.length, F0 q = F q := by
            intro q hq
            simp only [F0]
            rw [upd_ne _ _ (by omega), upd_ne _ _ (by omega)]
          have hs0 : F0 n.graph.nodes.length = Lang.cat L (F e) := upd_same _ _ _
          have hs1 : F0 (n.graph.nodes.length + 1) = F e := by
            simp only [F0]
            rw [upd_ne _ _ (by omega), upd_same]
          have hc0 : Closed al n1 F0 := by
            have := hF.congr hw hF0
            intro ed hed
            rw [hed1] at hed
            exact this ed hed
          obtain ⟨F1, a1, a2⟩ := hb.sound hn2 (by omega) (by omega) ((hx0.trans hx1).wf hw) F0 hc0 (by
            rw [hs0, hs1]; exact fun w h => h)
          have f1 : F1 n.graph.nodes.length = Lang.cat L (F e) := by rw [a1 _ (by omega), hs0]
          have f2 : F1 (n.graph.nodes.length + 1) = F e := by rw [a1 _ (by omega), hs1]
          have f3 : ∀ q < n.graph.nodes.length, F1 q = F q := fun q hq => by rw [a1 q (by omega), hF0 q hq]
          have c3 : Closed al (n2.addEpsilonTransition s n.graph.nodes.length) F1 := a2.addEps (by
            rw [f1, f3 s hs]
            rintro v ⟨u, v, rfl, hu, hv⟩
            exact hL _ ⟨u, v, rfl, Or.inl hu, hv⟩)
          have c4 := c3.addEps (s := n.graph.nodes.length + 1) (d := e) (by rw [f2, f3 e he]; exact fun v h => h)
          obtain ⟨F2, b1, b2⟩ := g3 ((((hx0.trans hx1).trans hx2).trans hx3).trans hx4 |>.wf hw) F1 c4 (by
            rw [f3 e he, f3 s hs]
            rintro w ⟨u, v, rfl, hu, hv⟩
            exact hL _ ⟨u, v, rfl, Or.inr hu, hv⟩)
          refine ⟨F2, ?_, b2⟩
          intro q hq
          rw [b1 q (by simp; omega), f3 q hq]
  exact ⟨fun h hs he => (main h hs he).1, fun h hs he => (main h hs he).2.1, fun h hs he => (main h hs he).2.2⟩

end Verif
