import Verif.Proofs.Nfa

/-! The repetition case of the NFA construction. -/

namespace Verif

/-- at least one, arbitrary many: `L*` -/
def Lang.star (L : Lang) : Lang := fun w => ∃ n, Lang.pow L n w

theorem pow_add {L : Lang} {a b : Nat} {w : List Char} :
    Lang.pow L (a + b) w ↔ ∃ u v, w = u ++ v ∧ Lang.pow L a u ∧ Lang.pow L b v := by
  induction a generalizing w with
  | zero =>
    simp only [Nat.zero_add, Lang.pow]
    constructor
    · intro h; exact ⟨[], w, rfl, rfl, h⟩
    · rintro ⟨u, v, rfl, rfl, h⟩; exact h
  | succ a ih =>
    rw [show a + 1 + b = (a + b) + 1 by omega]
    simp only [Lang.pow]
    constructor
    · rintro ⟨u, v, rfl, hu, hv⟩
      obtain ⟨x, y, rfl, hx, hy⟩ := ih.mp hv
      exact ⟨u ++ x, y, by simp, ⟨u, x, rfl, hu, hx⟩, hy⟩
    · rintro ⟨u, v, rfl, ⟨x, y, rfl, hx, hy⟩, hv⟩
      exact ⟨x, y ++ v, by simp, hx, ih.mpr ⟨y, v, rfl, hy, hv⟩⟩

theorem catAll_replicate {L E : Lang} {n : Nat} {w : List Char} :
    catAll (List.replicate n L) E w ↔ Lang.cat (Lang.pow L n) E w := by
  induction n generalizing w with
  | zero =>
    simp only [List.replicate, catAll, Lang.cat, Lang.pow]
    constructor
    · intro h; exact ⟨[], w, rfl, rfl, h⟩
    · rintro ⟨u, v, rfl, rfl, h⟩; exact h
  | succ n ih =>
    simp only [List.replicate, catAll, Lang.cat, Lang.pow]
    constructor
    · rintro ⟨u, v, rfl, hu, hv⟩
      obtain ⟨x, y, rfl, hx, hy⟩ := ih.mp hv
      exact ⟨u ++ x, y, by simp, ⟨u, x, rfl, hu, hx⟩, hy⟩
    · rintro ⟨u, v, rfl, ⟨x, y, rfl, hx, hy⟩, hv⟩
      exact ⟨x, y ++ v, by simp, hx, ih.mpr ⟨y, v, rfl, hy, hv⟩⟩

theorem buildsAll_replicate {al : Alphabet} {b : Builder} {L C : Lang} (h : Builds al b L C) (n : Nat) :
    BuildsAll al (List.replicate n b) (List.replicate n L) (List.replicate n C) := by
  induction n with
  | zero => exact .nil
  | succ n ih => exact .cons h ih

/-- a list of epsilon transitions into one node -/
theorem addEpsilons_spec {al : Alphabet} (is : List Nat) (n : LexNfa) (e : Nat) (hs : ∀ i ∈ is, i < n.graph.nodes.length)
    (he : e < n.graph.nodes.length) :
    let n' := is.foldl (fun nfa i => nfa.addEpsilonTransition i e) n
    Ext n n' ∧ (∀ i ∈ is, (⟨i, e, .epsilon⟩ : Edge (NfaEdge Nat)) ∈ n'.graph.edges) ∧
    (∀ F, Closed al n F → (∀ i ∈ is, ∀ v, F e v → F i v) → Closed al n' F) := by
  induction is generalizing n with
  | nil => exact ⟨Ext.refl n, by simp, fun F h _ => h⟩
  | cons i is ih =>
    have h1 := ext_addEdge n .epsilon (hs i (by simp)) he
    obtain ⟨g1, g2, g3⟩ := ih (n.addEpsilonTransition i e) (fun j hj => hs j (List.mem_cons_of_mem _ hj)) he
    refine ⟨h1.trans g1, ?_, ?_⟩
    · intro j hj
      rcases List.mem_cons.mp hj with rfl | hj
      · exact g1.mem (by simp)
      · exact g2 j hj
    · intro F hF hi
      refine g3 F ?_ (fun j hj => hi j (List.mem_cons_of_mem _ hj))
      exact hF.addEps (hi i (by simp))

theorem residuals_replicate {L E : Lang} {n : Nat} : ∀ G ∈ residuals (List.replicate n L) E,
    ∃ k, 1 ≤ k ∧ G = catAll (List.replicate k L) E := by
  induction n with
  | zero => simp [residuals]
  | succ n ih =>
    cases n with
    | zero => simp [residuals]
    | succ n =>
      intro G hG
      simp only [List.replicate, residuals, List.mem_cons] at hG
      rcases hG with rfl | hG
      · exact ⟨n + 1, by omega, rfl⟩
      · exact ih G hG

/-- after at most `j` copies of `L`, continue with `K` -/
def Lang.upTo (L : Lang) (j : Nat) (K : Lang) : Lang := Lang.cat (fun w => ∃ i, i ≤ j ∧ Lang.pow L i w) K

theorem upTo_base {L K : Lang} {j : Nat} {v : List Char} (h : K v) : Lang.upTo L j K v :=
  ⟨[], v, rfl, ⟨0, Nat.zero_le _, rfl⟩, h⟩

theorem upTo_step {L K : Lang} {j : Nat} {w : List Char} (h : Lang.cat L (Lang.upTo L j K) w) : Lang.upTo L (j + 1) K w := by
  obtain ⟨u, v, rfl, hu, x, y, rfl, ⟨i, hi, hx⟩, hy⟩ := h
  exact ⟨u ++ x, y, by simp, ⟨i + 1, by omega, u, x, rfl, hu, hx⟩, hy⟩

/-- residual languages of the optional copies -/
def downs (L K : Lang) : Nat → List Lang
  | 0 => []
  | 1 => []
  | m + 2 => Lang.upTo L (m + 1) K :: downs L K (m + 1)

theorem chainOk_downs {L K A : Lang} {m : Nat} (hA : ∀ w, Lang.upTo L (m + 1) K w → A w) :
    ChainOk A (List.replicate (m + 1) L) (downs L K (m + 1)) K := by
  induction m generalizing A with
  | zero =>
    intro w hw
    apply hA
    obtain ⟨u, v, rfl, hu, hv⟩ := hw
    exact upTo_step ⟨u, v, rfl, hu, upTo_base hv⟩
  | succ m ih =>
    exact ⟨fun w hw => hA w (upTo_step hw), ih (fun w hw => hw)⟩

theorem mem_downs {L K : Lang} {m : Nat} : ∀ G ∈ downs L K m, ∃ j, G = Lang.upTo L j K := by
  induction m with
  | zero => simp [downs]
  | succ m ih =>
    cases m with
    | zero => simp [downs]
    | succ m =>
      intro G hG
      simp only [downs, List.mem_cons] at hG
      rcases hG with rfl | hG
      · exact ⟨_, rfl⟩
      · exact ih G hG

theorem PathChain.run_upTo {al : Alphabet} {n : LexNfa} {C : Lang} {x : Nat} {s : Nat} {is : List Nat} {e m : Nat}
    (h : PathChain al n s is e (List.replicate m C)) (hs : n.Path s [] x) (hi : ∀ i ∈ is, n.Path i [] x) (he : n.Path e [] x)
    {k : Nat} (hk : k ≤ m) {w : List Char} (hw : Lang.pow C k w) : n.Path s (w.map (classOf al)) x := by
  induction is generalizing s m k w with
  | nil =>
    match m, h with
    | 1, h =>
      match k, hk with
      | 0, _ => cases hw; exact hs
      | 1, _ =>
        obtain ⟨u, v, rfl, hu, hv⟩ := hw
        cases hv
        simpa using (h u hu).trans he
  | cons i is ih =>
    match m, h with
    | m + 1, h =>
      cases k with
      | zero => cases hw; exact hs
      | succ k =>
        obtain ⟨u, v, rfl, hu, hv⟩ := hw
        rw [List.map_append]
        exact (h.1 u hu).trans (ih h.2 (hi i (by simp)) (fun j hj => hi j (List.mem_cons_of_mem _ hj)) (by omega) hv)

theorem PathChain.last {al : Alphabet} {n : LexNfa} {C : Lang} {s : Nat} {is : List Nat} {e m : Nat}
    (h : PathChain al n s is e (List.replicate m C)) {w : List Char} (hw : C w) :
    n.Path (is.getLast?.getD s) (w.map (classOf al)) e := by
  induction is generalizing s m with
  | nil =>
    match m, h with
    | 1, h => exact h w hw
  | cons i is ih =>
    match m, h with
    | m + 1, h =>
      have := ih h.2
      cases is with
      | nil => exact this
      | cons j is => rw [List.getLast?_cons_cons]; simpa [List.getLast?_cons] using this

/-- the language of a repetition -/
def Lang.rep (min : Nat) (max : Option Nat) (L : Lang) : Lang :=
  fun w => ∃ n, min ≤ n ∧ (∀ m, max = some m → n ≤ m) ∧ Lang.pow L n w

/-- the two fresh nodes and the edge into the first, common to all cases -/
theorem rep_prelude (n : LexNfa) {s : Nat} (hs : s < n.graph.nodes.length) :
    ∃ n0 : LexNfa, (n.addIntermediateState.1.addIntermediateState.1.addEpsilonTransition s n.graph.nodes.length) = n0 ∧
      Ext n n0 ∧ n0.graph.nodes.length = n.graph.nodes.length + 2 ∧
      n0.graph.edges = n.graph.edges ++ [⟨s, n.graph.nodes.length, .epsilon⟩] := by
  refine ⟨_, rfl, ?_, by simp, by simp⟩
  exact ((ext_addInter n).trans (ext_addInter _)).trans (ext_addEdge _ .epsilon (by simp; omega) (by simp; omega))

theorem star_base {L K : Lang} {v : List Char} (h : K v) : Lang.cat (Lang.star L) K v :=
  ⟨[], v, rfl, ⟨0, rfl⟩, h⟩

theorem star_step {L K : Lang} {w : List Char} (h : Lang.cat L (Lang.cat (Lang.star L) K) w) : Lang.cat (Lang.star L) K w := by
  obtain ⟨u, v, rfl, hu, x, y, rfl, ⟨i, hx⟩, hy⟩ := h
  exact ⟨u ++ x, y, by simp, ⟨i + 1, u, x, rfl, hu, hx⟩, hy⟩

theorem star_pow {L K : Lang} {k : Nat} {w : List Char} (h : Lang.cat (Lang.pow L k) (Lang.cat (Lang.star L) K) w) :
    Lang.cat (Lang.star L) K w := by
  obtain ⟨u, v, rfl, hu, x, y, rfl, ⟨i, hx⟩, hy⟩ := h
  exact ⟨u ++ x, y, by simp, ⟨k + i, pow_add.mpr ⟨u, x, rfl, hu, hx⟩⟩, hy⟩

/-- what has to be shown of a build call -/
def BuildOk (al : Alphabet) (s e : Nat) (n n' : LexNfa) (L C : Lang) : Prop :=
  Ext n n' ∧ (∀ w, C w → n'.Path s (w.map (classOf al)) e) ∧
  (n.WF → ∀ F : Nat → Lang, Closed al n F → (∀ w, Lang.cat L (F e) w → F s w) →
    ∃ F' : Nat → Lang, (∀ q < n.graph.nodes.length, F' q = F q) ∧ Closed al n' F')

theorem builds_of_ok {al : Alphabet} {b : Builder} {L C : Lang}
    (h : ∀ {s e n n'}, b s e n = .ok n' → s < n.graph.nodes.length → e < n.graph.nodes.length → BuildOk al s e n n' L C) :
    Builds al b L C :=
  ⟨fun a b c => (h a b c).1, fun a b c => (h a b c).2.1, fun a b c => (h a b c).2.2⟩

theorem closed_addSimple {al : Alphabet} {n n0 : LexNfa} {F F0 : Nat → Lang} {s d : Nat} (hw : n.WF) (hF : Closed al n F)
    (h0 : ∀ q < n.graph.nodes.length, F0 q = F q)
    (hed : n0.graph.edges = n.graph.edges ++ [⟨s, d, .epsilon⟩]) (hsd : ∀ v, F0 d v → F0 s v) : Closed al n0 F0 := by
  have := hF.congr hw h0
  intro ed he
  rw [hed] at he
  rcases List.mem_append.mp he with h1 | h1
  · exact this ed h1
  · simp at h1; subst h1; exact hsd

theorem builds_star {al : Alphabet} {b : Builder} {L C : Lang} (hb : Builds al b L C) :
    Builds al (buildRepetition 0 none b) (Lang.rep 0 none L) (Lang.rep 0 none C) := by
  apply builds_of_ok
  intro s e n n' h hs he
  obtain ⟨n0, hn0, hx0, hl0, hed0⟩ := rep_prelude n hs
  simp only [buildRepetition, addInter_snd, addInter_len, hn0] at h
  generalize hN : n.graph.nodes.length = N at *
  rcases hn1 : b N (N + 1) n0 with err | n1
  · simp only [hn1] at h; cases h
  · simp only [hn1, bind, Except.bind] at h
    cases h
    have hx1 : Ext n0 n1 := hb.ext hn1 (by omega) (by omega)
    have hl1 := hx1.len
    have hx2 : Ext n1 (n1.addEpsilonTransition s e) := ext_addEdge n1 .epsilon (by omega) (by omega)
    have hx3 := ext_addEdge (n1.addEpsilonTransition s e) (s := N + 1) (d := N) .epsilon (by simp; omega) (by simp; omega)
    have hx4 := ext_addEdge ((n1.addEpsilonTransition s e).addEpsilonTransition (N + 1) N) (s := N + 1) (d := e) .epsilon
      (by simp; omega) (by simp; omega)
    have hx14 := (hx2.trans hx3).trans hx4
    refine ⟨(hx0.trans hx1).trans hx14, ?_, ?_⟩
    · rintro w ⟨k, _, _, hk⟩
      generalize hn' : (((n1.addEpsilonTransition s e).addEpsilonTransition (N + 1) N).addEpsilonTransition (N + 1) e) = n'
      have e0 : (⟨s, N, .epsilon⟩ : Edge (NfaEdge Nat)) ∈ n'.graph.edges := by
        rw [← hn']; exact (hx1.trans hx14).mem (by rw [hed0]; simp)
      have e1 : (⟨s, e, .epsilon⟩ : Edge (NfaEdge Nat)) ∈ n'.graph.edges := by rw [← hn']; simp
      have e2 : (⟨N + 1, N, .epsilon⟩ : Edge (NfaEdge Nat)) ∈ n'.graph.edges := by rw [← hn']; simp
      have e3 : (⟨N + 1, e, .epsilon⟩ : Edge (NfaEdge Nat)) ∈ n'.graph.edges := by rw [← hn']; simp
      have one : ∀ u, C u → n'.Path N (u.map (classOf al)) (N + 1) := by
        intro u hu
        rw [← hn']
        exact hx14.path (hb.complete hn1 (by omega) (by omega) u hu)
      have many : ∀ k u, Lang.pow C k u → n'.Path (N + 1) (u.map (classOf al)) e := by
        intro k
        induction k with
        | zero => intro u hu; cases hu; exact .eps e3 (.refl e)
        | succ k ih =>
          rintro u ⟨x, y, rfl, hx, hy⟩
          rw [List.map_append]
          exact (Nfa.Path.eps e2 (one x hx)).trans (ih y hy)
      cases k with
      | zero => cases hk; exact .eps e1 (.refl e)
      | succ k =>
        obtain ⟨u, v, rfl, hu, hv⟩ := hk
        rw [List.map_append]
        exact (Nfa.Path.eps e0 (one u hu)).trans (many k v hv)
    · intro hw F hF hL
      have hstar : ∀ w, Lang.cat (Lang.star L) (F e) w → F s w := by
        rintro w ⟨u, v, rfl, ⟨i, hu⟩, hv⟩
        exact hL _ ⟨u, v, rfl, ⟨i, Nat.zero_le _, by simp, hu⟩, hv⟩
      let S := Lang.cat (Lang.star L) (F e)
      let F0 := upd (upd F (N + 1) S) N S
      have h0 : ∀ q < N, F0 q = F q := by
        intro q hq
        simp only [F0]
        rw [upd_ne _ _ (by omega), upd_ne _ _ (by omega)]
      have hN0 : F0 N = S := upd_same _ _ _
      have hN1 : F0 (N + 1) = S := by simp only [F0]; rw [upd_ne _ _ (by omega), upd_same]
      have c0 : Closed al n0 F0 := closed_addSimple hw hF (by rw [hN]; exact h0) hed0 (by
        rw [hN0, h0 s hs]; exact hstar)
      obtain ⟨F1, a1, a2⟩ := hb.sound hn1 (by omega) (by omega) (hx0.wf hw) F0 c0 (by
        rw [hN0, hN1]; exact fun w hw => star_step hw)
      have f0 : F1 N = S := by rw [a1 _ (by omega), hN0]
      have f1 : F1 (N + 1) = S := by rw [a1 _ (by omega), hN1]
      have f2 : ∀ q < N, F1 q = F q := fun q hq => by rw [a1 q (by omega), h0 q hq]
      refine ⟨F1, hN ▸ f2, ?_⟩
      apply Closed.addEps
      · apply Closed.addEps
        · apply a2.addEps
          rw [f2 e he, f2 s hs]
          exact fun v hv => hstar v (star_base hv)
        · rw [f0, f1]; exact fun v h => h
      · rw [f1, f2 e he]; exact fun v hv => star_base hv

theorem builds_atLeast {al : Alphabet} {b : Builder} {L C : Lang} (hb : Builds al b L C) (m : Nat) :
    Builds al (buildRepetition (m + 1) none b) (Lang.rep (m + 1) none L) (Lang.rep (m + 1) none C) := by
  apply builds_of_ok
  intro s e n n' h hs he
  obtain ⟨n0, hn0, hx0, hl0, hed0⟩ := rep_prelude n hs
  simp only [buildRepetition, addInter_snd, addInter_len, hn0, chainPatternTimes] at h
  simp only [buildMandatory, chainPatternTimes, if_neg (Nat.succ_ne_zero m)] at h
  generalize hN : n.graph.nodes.length = N at *
  rcases hn1 : chainPatternIterator (List.replicate (m + 1) b) N (N + 1) n0 with err | ⟨n1, is⟩
  · simp only [hn1] at h; cases h
  · simp only [hn1, bind, Except.bind] at h
    cases h
    obtain ⟨hx1, g2, g3, g4⟩ := chain_spec (buildsAll_replicate hb (m + 1)) hn1 (by omega) (by omega)
    have hl1 := hx1.len
    have hprev : is.getLast?.getD N < n1.graph.nodes.length := by
      cases hl : is.getLast? with
      | none => simp; omega
      | some i => simpa using g2 i (List.mem_of_getLast? hl)
    have hx2 := ext_addEdge n1 (s := N + 1) (d := is.getLast?.getD N) .epsilon (by omega) hprev
    have hx3 := ext_addEdge (n1.addEpsilonTransition (N + 1) (is.getLast?.getD N)) (s := N + 1) (d := e) .epsilon
      (by simp; omega) (by simp; omega)
    have hx14 := hx2.trans hx3
    refine ⟨(hx0.trans hx1).trans hx14, ?_, ?_⟩
    · rintro w ⟨k, hmk, _, hk⟩
      generalize hn' : (n1.addEpsilonTransition (N + 1) (is.getLast?.getD N)).addEpsilonTransition (N + 1) e = n'
      have e0 : (⟨s, N, .epsilon⟩ : Edge (NfaEdge Nat)) ∈ n'.graph.edges := by
        rw [← hn']; exact (hx1.trans hx14).mem (by rw [hed0]; simp)
      have e2 : (⟨N + 1, is.getLast?.getD N, .epsilon⟩ : Edge (NfaEdge Nat)) ∈ n'.graph.edges := by rw [← hn']; simp
      have e3 : (⟨N + 1, e, .epsilon⟩ : Edge (NfaEdge Nat)) ∈ n'.graph.edges := by rw [← hn']; simp
      have pc : PathChain al n' N is (N + 1) (List.replicate (m + 1) C) := by rw [← hn']; exact g3.ext hx14
      have many : ∀ k u, Lang.pow C k u → n'.Path (N + 1) (u.map (classOf al)) e := by
        intro k
        induction k with
        | zero => intro u hu; cases hu; exact .eps e3 (.refl e)
        | succ k ih =>
          rintro u ⟨x, y, rfl, hx, hy⟩
          rw [List.map_append]
          exact (Nfa.Path.eps e2 (pc.last hx)).trans (ih y hy)
      obtain ⟨j, rfl⟩ : ∃ j, k = (m + 1) + j := ⟨k - (m + 1), by omega⟩
      obtain ⟨u, v, rfl, hu, hv⟩ := pow_add.mp hk
      rw [List.map_append]
      refine (Nfa.Path.eps e0 (pc.run ?_)).trans (many j v hv)
      exact catAll_replicate.mpr ⟨u, [], by simp, hu, rfl⟩
    · intro hw F hF hL
      let S := Lang.cat (Lang.star L) (F e)
      let R := Lang.cat (Lang.pow L (m + 1)) S
      have hR : ∀ w, R w → F s w := by
        rintro w ⟨u, v, rfl, hu, x, y, rfl, ⟨i, hx⟩, hy⟩
        exact hL _ ⟨u ++ x, y, by simp, ⟨m + 1 + i, by omega, by simp, pow_add.mpr ⟨u, x, rfl, hu, hx⟩⟩, hy⟩
      let F0 := upd (upd F (N + 1) S) N R
      have h0 : ∀ q < N, F0 q = F q := by
        intro q hq
        simp only [F0]
        rw [upd_ne _ _ (by omega), upd_ne _ _ (by omega)]
      have hN0 : F0 N = R := upd_same _ _ _
      have hN1 : F0 (N + 1) = S := by simp only [F0]; rw [upd_ne _ _ (by omega), upd_same]
      have c0 : Closed al n0 F0 := closed_addSimple hw hF (by rw [hN]; exact h0) hed0 (by
        rw [hN0, h0 s hs]; exact hR)
      obtain ⟨F1, a1, a2, a3⟩ := g4 (hx0.wf hw) F0 (residuals (List.replicate (m + 1) L) S) c0 (by
        rw [hN0, hN1]
        apply chainOk_residuals (by simp)
        intro w hw
        exact catAll_replicate.mp hw)
      have f0 : F1 N = R := by rw [a1 _ (by omega), hN0]
      have f1 : F1 (N + 1) = S := by rw [a1 _ (by omega), hN1]
      have f2 : ∀ q < N, F1 q = F q := fun q hq => by rw [a1 q (by omega), h0 q hq]
      refine ⟨F1, hN ▸ f2, ?_⟩
      apply Closed.addEps
      · apply a2.addEps
        rw [f1]
        cases hl : is.getLast? with
        | none => simp only [Option.getD_none]; rw [f0]; exact fun v hv => star_pow hv
        | some i =>
          simp only [Option.getD_some]
          have : F1 i ∈ residuals (List.replicate (m + 1) L) S := by
            rw [← a3]; exact List.mem_map_of_mem (List.mem_of_getLast? hl)
          obtain ⟨k, _, hk⟩ := residuals_replicate _ this
          rw [hk]
          intro v hv
          exact star_pow (catAll_replicate.mp hv)
      · rw [f1, f2 e he]; exact fun v hv => star_base hv

theorem builds_between {al : Alphabet} {b : Builder} {L C : Lang} (hb : Builds al b L C) (min max : Nat) :
    Builds al (buildRepetition min (some max) b) (Lang.rep min (some max) L) (Lang.rep min (some max) C) := by
  apply builds_of_ok
  intro s e n n' h hs he
  obtain ⟨n0, hn0, hx0, hl0, hed0⟩ := rep_prelude n hs
  simp only [buildRepetition, addInter_snd, addInter_len, hn0, chainPatternTimes] at h
  generalize hN : n.graph.nodes.length = N at *
  -- the mandatory copies
  have mand : ∀ {n1 is}, buildMandatory min b N (N + 1) n0 = .ok (n1, is) →
      Ext n0 n1 ∧ (∀ w, Lang.pow C min w → n1.Path N (w.map (classOf al)) (N + 1)) ∧
      (n0.WF → ∀ F : Nat → Lang, Closed al n0 F → (∀ w, Lang.cat (Lang.pow L min) (F (N + 1)) w → F N w) →
        ∃ F' : Nat → Lang, (∀ q < N + 2, F' q = F q) ∧ Closed al n1 F') := by
    intro n1 is h1
    unfold buildMandatory chainPatternTimes at h1
    by_cases hm : min = 0
    · rw [if_pos hm] at h1
      cases h1
      subst hm
      refine ⟨ext_addEdge n0 .epsilon (by omega) (by omega), ?_, ?_⟩
      · intro w hw
        cases hw
        exact .eps (by simp) (.refl _)
      · intro _ F hF hL
        refine ⟨F, fun _ _ => rfl, hF.addEps ?_⟩
        intro v hv
        exact hL v ⟨[], v, rfl, rfl, hv⟩
    · rw [if_neg hm] at h1
      obtain ⟨hx1, g2, g3, g4⟩ := chain_spec (buildsAll_replicate hb min) h1 (by omega) (by omega)
      refine ⟨hx1, ?_, ?_⟩
      · intro w hw
        exact g3.run (catAll_replicate.mpr ⟨w, [], by simp, hw, rfl⟩)
      · intro hw F hF hL
        obtain ⟨F', a1, a2, _⟩ := g4 hw F (residuals (List.replicate min L) (F (N + 1))) hF (by
          apply chainOk_residuals
          · cases min with
            | zero => exact absurd rfl hm
            | succ m => simp
          · intro w hw
            exact hL w (catAll_replicate.mp hw))
        exact ⟨F', fun q hq => a1 q (by omega), a2⟩
  rcases hn1 : buildMandatory min b N (N + 1) n0 with err | ⟨n1, is1⟩
  · simp only [hn1] at h; cases h
  · obtain ⟨hx1, m2, m3⟩ := mand hn1
    clear mand
    have hl1 := hx1.len
    simp only [hn1, bind, Except.bind] at h
    by_cases hmm : max < min
    · rw [if_pos hmm] at h; cases h
    · rw [if_neg hmm] at h
      simp only [addEps_nodes, addInter_len, pure, Except.pure] at h
      generalize hM : n1.graph.nodes.length = M at *
      generalize hn2 : (n1.addIntermediateState.1.addEpsilonTransition (N + 1) M).addIntermediateState.1 = n2 at h
      have hx2 : Ext n1 n2 := by
        rw [← hn2]
        exact ((ext_addInter n1).trans (ext_addEdge _ .epsilon (by simp; omega) (by simp; omega))).trans (ext_addInter _)
      have hl2 : n2.graph.nodes.length = M + 2 := by rw [← hn2]; simp [hM]
      have hed2 : n2.graph.edges = n1.graph.edges ++ [⟨N + 1, M, .epsilon⟩] := by rw [← hn2]; simp
      rcases hn3 : chainPatternIterator (List.replicate (max - min) b) M (M + 1) n2 with err | ⟨n3, is⟩
      · simp only [hn3] at h; cases h
      · simp only [hn3] at h
        obtain ⟨hx3, g2, g3, g4⟩ := chain_spec (buildsAll_replicate hb (max - min)) hn3 (by omega) (by omega)
        have hl3 := hx3.len
        injection h with h
        obtain ⟨hx4, hedges, hclosed⟩ := addEpsilons_spec (al := al) (is ++ [M, M + 1]) n3 e (by
          intro i hi
          rcases List.mem_append.mp hi with hi | hi
          · exact g2 i hi
          · simp at hi; omega) (by omega)
        simp only [h] at hx4 hedges hclosed
        have hpos : 0 < max - min := by
          rcases Nat.eq_zero_or_pos (max - min) with h0 | h0
          · rw [h0] at hn3; simp [chainPatternIterator] at hn3
          · exact h0
        refine ⟨(((hx0.trans hx1).trans hx2).trans hx3).trans hx4, ?_, ?_⟩
        · rintro w ⟨k, hk1, hk2, hk⟩
          have hk2 := hk2 max rfl
          obtain ⟨j, rfl⟩ : ∃ j, k = min + j := ⟨k - min, by omega⟩
          obtain ⟨u, v, rfl, hu, hv⟩ := pow_add.mp hk
          have e0 : (⟨s, N, .epsilon⟩ : Edge (NfaEdge Nat)) ∈ n'.graph.edges :=
            (((hx1.trans hx2).trans hx3).trans hx4).mem (by rw [hed0]; simp)
          have e1 : (⟨N + 1, M, .epsilon⟩ : Edge (NfaEdge Nat)) ∈ n'.graph.edges :=
            (hx3.trans hx4).mem (by rw [hed2]; simp)
          rw [List.map_append]
          refine (Nfa.Path.eps e0 (((hx2.trans hx3).trans hx4).path (m2 u hu))).trans (.eps e1 ?_)
          refine (g3.ext hx4).run_upTo ?_ ?_ ?_ (k := j) (by omega) hv
          · exact .eps (hedges M (by simp)) (.refl e)
          · intro i hi; exact .eps (hedges i (by simp [hi])) (.refl e)
          · exact .eps (hedges (M + 1) (by simp)) (.refl e)
        · intro hw F hF hL
          let K := F e
          let U := Lang.upTo L (max - min) K
          let R := Lang.cat (Lang.pow L min) U
          have hR : ∀ w, R w → F s w := by
            rintro w ⟨u, v, rfl, hu, x, y, rfl, ⟨i, hi, hx⟩, hy⟩
            exact hL _ ⟨u ++ x, y, by simp, ⟨min + i, by omega, by intro m hm; cases hm; omega,
              pow_add.mpr ⟨u, x, rfl, hu, hx⟩⟩, hy⟩
          let F0 := upd (upd F (N + 1) U) N R
          have h0 : ∀ q < N, F0 q = F q := by
            intro q hq
            simp only [F0]
            rw [upd_ne _ _ (by omega), upd_ne _ _ (by omega)]
          have hN0 : F0 N = R := upd_same _ _ _
          have hN1 : F0 (N + 1) = U := by simp only [F0]; rw [upd_ne _ _ (by omega), upd_same]
          have c0 : Closed al n0 F0 := closed_addSimple hw hF (by rw [hN]; exact h0) hed0 (by
            rw [hN0, h0 s hs]; exact hR)
          obtain ⟨F1, a1, a2⟩ := m3 (hx0.wf hw) F0 c0 (by rw [hN0, hN1]; exact fun w h => h)
          let F2 := upd (upd F1 (M + 1) K) M U
          have q0 : ∀ q < M, F2 q = F1 q := by
            intro q hq
            simp only [F2]
            rw [upd_ne _ _ (by omega), upd_ne _ _ (by omega)]
          have hM0 : F2 M = U := upd_same _ _ _
          have hM1 : F2 (M + 1) = K := by simp only [F2]; rw [upd_ne _ _ (by omega), upd_same]
          have c2 : Closed al n2 F2 := closed_addSimple ((hx0.trans hx1).wf hw) a2 (by rw [hM]; exact q0) hed2 (by
            rw [hM0, q0 (N + 1) (by omega), a1 (N + 1) (by omega), hN1]; exact fun v h => h)
          obtain ⟨F3, b1, b2, b3⟩ := g4 (((hx0.trans hx1).trans hx2).wf hw) F2 (downs L K (max - min)) c2 (by
            rw [hM0, hM1]
            obtain ⟨j, hj⟩ : ∃ j, max - min = j + 1 := ⟨max - min - 1, by omega⟩
            rw [hj]
            apply chainOk_downs
            simp only [U, hj]
            exact fun w h => h)
          have hfin : ∀ q < N, F3 q = F q := by
            intro q hq
            rw [b1 q (by omega), q0 q (by omega), a1 q (by omega), h0 q hq]
          refine ⟨F3, hN ▸ hfin, hclosed F3 b2 ?_⟩
          intro i hi v hv
          rw [hfin e he] at hv
          rcases List.mem_append.mp hi with hi | hi
          · have : F3 i ∈ downs L K (max - min) := by rw [← b3]; exact List.mem_map_of_mem hi
            obtain ⟨j, hj⟩ := mem_downs _ this
            rw [hj]; exact upTo_base hv
          · simp only [List.mem_cons, List.not_mem_nil, or_false] at hi
            rcases hi with rfl | rfl
            · rw [b1 _ (by omega), hM0]; exact upTo_base hv
            · rw [b1 _ (by omega), hM1]; exact hv

theorem builds_repetition {al : Alphabet} {b : Builder} {L C : Lang} (hb : Builds al b L C) (min : Nat) (max : Option Nat) :
    Builds al (buildRepetition min max b) (Lang.rep min max L) (Lang.rep min max C) := by
  cases max with
  | none =>
    cases min with
    | zero => exact builds_star hb
    | succ m => exact builds_atLeast hb m
  | some max => exact builds_between hb min max

end Verif
