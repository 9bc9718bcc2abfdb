import Verif.Proofs.GlrTerm
import Verif.Proofs.ItemAfter

/-! # Termination of the GLR driver for grammars with empty rules -/

set_option autoImplicit false

namespace Verif

variable {T : Type} {g : Grammar} {kind : LRKind} {gr : LRGraph} {m : GlrMachine} {input : Nat → Tok × T}

/-! ## Trees with the same tokens have bounded size -/

mutual
/-- number of inner nodes -/
def PTree.inner : PTree T → Nat
  | .leaf _ _ => 0
  | .node _ cs => 1 + PTree.innerList cs
/-- number of inner nodes of a list of trees -/
def PTree.innerList : List (PTree T) → Nat
  | [] => 0
  | t :: ts => t.inner + PTree.innerList ts
end

theorem innerList_append (xs ys : List (PTree T)) : PTree.innerList (xs ++ ys) = PTree.innerList xs + PTree.innerList ys := by
  induction xs with
  | nil => simp [PTree.innerList]
  | cons x xs ih => simp only [List.cons_append, PTree.innerList, ih]; omega

theorem innerList_reverse (xs : List (PTree T)) : PTree.innerList xs.reverse = PTree.innerList xs := by
  induction xs with
  | nil => rfl
  | cons x xs ih => rw [List.reverse_cons, innerList_append, ih]; simp only [PTree.innerList]; omega

theorem tokensList_append' (xs ys : List (PTree T)) : PTree.tokensList (xs ++ ys) = PTree.tokensList xs ++ PTree.tokensList ys := by
  induction xs with
  | nil => simp [PTree.tokensList]
  | cons x xs ih => simp [PTree.tokensList, ih]

open Classical in
/-- number of rules for non-terminals derived from a symbol -/
noncomputable def selfRank (g : Grammar) (A : Nat) : Nat := g.rules.countP (fun r => Relation.TransGen (SelfStep g) A r.lhs)

open Classical in
theorem selfRank_lt (hc : NoCycle g) {A : Nat} {r : Rule} (hr : r ∈ g.rules) (h : SelfStep g A r.lhs) : selfRank g r.lhs < selfRank g A := by
  unfold selfRank
  have hmono : ∀ l : List Rule, l.countP (fun x => decide (Relation.TransGen (SelfStep g) r.lhs x.lhs)) ≤ l.countP (fun x => decide (Relation.TransGen (SelfStep g) A x.lhs)) := by
    intro l
    refine List.countP_mono_left fun x _ hx => ?_
    simp only [decide_eq_true_eq] at hx ⊢
    exact .head h hx
  obtain ⟨l1, l2, hl⟩ := List.append_of_mem hr
  rw [hl, List.countP_append, List.countP_append, List.countP_cons_of_neg (by simpa using hc r.lhs), List.countP_cons_of_pos (by simpa using Relation.TransGen.single h)]
  have h1 := hmono l1
  have h2 := hmono l2
  omega

theorem selfRank_le (A : Nat) : selfRank g A ≤ g.rules.length := List.countP_le_length

/-- what the size of a tree depends on -/
noncomputable def treeRank (g : Grammar) (ℓ : Nat) : Sym → Nat
  | .nt A => ℓ * (g.rules.length + 1) + selfRank g A
  | _ => 0

/-- the trees of a forest, with what stands around them -/
theorem forest_mem {rules : List Rule} {ss : List Sym} {ts : List (PTree T)} (h : Forest rules ss ts) {t : PTree T} (ht : t ∈ ts) :
    ∃ X ss1 ss2 ts1 ts2, ss = ss1 ++ X :: ss2 ∧ ts = ts1 ++ t :: ts2 ∧ Forest rules ss1 ts1 ∧ IsParseTree rules X t ∧ Forest rules ss2 ts2 := by
  induction h with
  | nil => cases ht
  | @eps ss ts h ih =>
    obtain ⟨X, ss1, ss2, ts1, ts2, h1, h2, h3, h4, h5⟩ := ih ht
    exact ⟨X, .eps :: ss1, ss2, ts1, ts2, by rw [h1]; rfl, h2, .eps h3, h4, h5⟩
  | @term a d ss ts h ih =>
    rcases List.mem_cons.mp ht with rfl | ht
    · exact ⟨.t a, [], ss, [], ts, rfl, rfl, .nil, .term .nil, h⟩
    · obtain ⟨X, ss1, ss2, ts1, ts2, h1, h2, h3, h4, h5⟩ := ih ht
      exact ⟨X, .t a :: ss1, ss2, .leaf a d :: ts1, ts2, by rw [h1]; rfl, by rw [h2]; rfl, .term h3, h4, h5⟩
  | @nonterm r cs ss ts hr hc h _ ih =>
    rcases List.mem_cons.mp ht with rfl | ht
    · exact ⟨.nt r.lhs, [], ss, [], ts, rfl, rfl, .nil, .nonterm hr hc .nil, h⟩
    · obtain ⟨X, ss1, ss2, ts1, ts2, h1, h2, h3, h4, h5⟩ := ih ht
      exact ⟨X, .nt r.lhs :: ss1, ss2, .node r cs :: ts1, ts2, by rw [h1]; rfl, by rw [h2]; rfl, .nonterm hr hc h3, h4, h5⟩

theorem innerList_le {B : Nat} {ts : List (PTree T)} (h : ∀ t ∈ ts, t.inner ≤ B) : PTree.innerList ts ≤ ts.length * B := by
  induction ts with
  | nil => simp [PTree.innerList]
  | cons t ts ih =>
    simp only [PTree.innerList, List.length_cons, Nat.add_mul, Nat.one_mul]
    have := h t (by simp)
    have := ih (fun t ht => h t (by simp [ht]))
    omega

theorem tree_size (hc : NoCycle g) {M : Nat} (hM : ∀ r ∈ g.rules, r.rhs.length ≤ M) : ∀ (n : Nat) (X : Sym) (t : PTree T), IsParseTree g.rules X t → treeRank g t.tokens.length X ≤ n →
    t.inner ≤ (M + 1) ^ (n + 1) := by
  intro n
  induction n using Nat.strong_induction_on with
  | _ n ih =>
    intro X t h hn
    unfold IsParseTree at h
    cases h with
    | eps h => cases h
    | term _ => simp [PTree.inner]
    | @nonterm r cs _ _ hr hf _ =>
      have hlen : cs.length ≤ M := by
        rw [forest_length hf]
        exact (List.length_filter_le _ _).trans (hM r hr)
      simp only [PTree.inner]
      -- every child is smaller
      have hch : ∀ t ∈ cs, n = 0 ∧ t.inner = 0 ∨ ∃ k, n = k + 1 ∧ t.inner ≤ (M + 1) ^ (k + 1) := by
        intro t ht
        obtain ⟨X, ss1, ss2, ts1, ts2, h1, h2, h3, h4, h5⟩ := forest_mem hf ht
        have hlt : t.inner = 0 ∨ treeRank g t.tokens.length X < n := by
          have h4' := h4
          unfold IsParseTree at h4
          cases h4 with
          | eps h => cases h
          | term _ => exact .inl rfl
          | @nonterm r' cs' _ _ hr' hf' _ =>
            right
            have htok : (PTree.node r cs).tokens = PTree.tokensList ts1 ++ ((PTree.node r' cs').tokens ++ PTree.tokensList ts2) := by
              simp only [PTree.tokens]
              rw [h2, tokensList_append']
              simp [PTree.tokensList, PTree.tokens]
            have hl : (PTree.node r cs).tokens.length = (PTree.tokensList ts1).length + ((PTree.node r' cs').tokens.length + (PTree.tokensList ts2).length) := by rw [htok]; simp
            simp only [treeRank] at hn ⊢
            have hle := selfRank_le (g := g) r'.lhs
            by_cases hz : (PTree.tokensList ts1).length = 0 ∧ (PTree.tokensList ts2).length = 0
            · have e1 := List.length_eq_zero_iff.mp hz.1
              have e2 := List.length_eq_zero_iff.mp hz.2
              have hs : SelfStep g r.lhs r'.lhs := ⟨r, hr, ss1, ss2, rfl, h1, by simpa [e1] using forest_derives h3, by simpa [e2] using forest_derives h5⟩
              have := selfRank_lt hc hr' hs
              have e : (PTree.node r cs).tokens.length = (PTree.node r' cs').tokens.length := by omega
              rw [e] at hn
              omega
            · have : (PTree.node r' cs').tokens.length + 1 ≤ (PTree.node r cs).tokens.length := by omega
              have := Nat.mul_le_mul_right (g.rules.length + 1) this
              rw [Nat.add_mul] at this
              omega
        cases n with
        | zero => left; exact ⟨rfl, hlt.resolve_right (by omega)⟩
        | succ k =>
          right
          refine ⟨k, rfl, ?_⟩
          rcases hlt with h0 | hlt
          · omega
          · exact ih k (by omega) X t h4 (by omega)
      have hpos : ∀ k, 1 ≤ (M + 1) ^ k := fun k => Nat.one_le_pow _ _ (by omega)
      cases n with
      | zero =>
        have := innerList_le (B := 0) (ts := cs) (fun t ht => by rcases hch t ht with h | ⟨k, h, _⟩ <;> omega)
        simp at this
        rw [this]
        have := hpos 1
        omega
      | succ k =>
        have h1 := innerList_le (B := (M + 1) ^ (k + 1)) (ts := cs) (fun t ht => by
          rcases hch t ht with ⟨h, _⟩ | ⟨k', h, h'⟩
          · omega
          · obtain rfl : k = k' := by omega
            exact h')
        have h2 := Nat.mul_le_mul_right ((M + 1) ^ (k + 1)) hlen
        have h3 := hpos (k + 1)
        rw [Nat.pow_succ (M + 1) (k + 1), Nat.mul_add, Nat.mul_comm _ M]
        omega

/-! ## Symbols that can become empty on top of the stack -/

/-- some of the steps from `A` to `B` is hidden -/
def HiddenChain (g : Grammar) (A B : Nat) : Prop := ∃ C D, Relation.ReflTransGen (LeftStep g) A C ∧ HiddenStep g C D ∧ Relation.ReflTransGen (LeftStep g) D B

theorem HiddenStep.left {A B : Nat} (h : HiddenStep g A B) : LeftStep g A B := by
  obtain ⟨r, h1, α, β, h2, h3, h4, _⟩ := h
  exact ⟨r, h1, α, β, h2, h3, h4⟩

theorem no_hiddenChain (hh : NoHiddenLeftRecursion g) (A : Nat) : ¬ HiddenChain g A A := by
  rintro ⟨C, D, h1, h2, h3⟩
  exact hh C D h2 (h3.trans h1)

open Classical in
noncomputable def hiddenRank (g : Grammar) (A : Nat) : Nat := g.rules.countP (fun r => HiddenChain g r.lhs A)

theorem hiddenRank_le (A : Nat) : hiddenRank g A ≤ g.rules.length := List.countP_le_length

open Classical in
theorem hiddenRank_mono {A B : Nat} (h : LeftStep g A B) : hiddenRank g A ≤ hiddenRank g B := by
  unfold hiddenRank
  refine List.countP_mono_left fun x _ hx => ?_
  simp only [decide_eq_true_eq] at hx ⊢
  obtain ⟨C, D, h1, h2, h3⟩ := hx
  exact ⟨C, D, h1, h2, h3.tail h⟩

open Classical in
theorem hiddenRank_lt (hh : NoHiddenLeftRecursion g) {r : Rule} (hr : r ∈ g.rules) {B : Nat} (h : HiddenStep g r.lhs B) : hiddenRank g r.lhs < hiddenRank g B := by
  unfold hiddenRank
  have hmono : ∀ l : List Rule, l.countP (fun x => decide (HiddenChain g x.lhs r.lhs)) ≤ l.countP (fun x => decide (HiddenChain g x.lhs B)) := by
    intro l
    refine List.countP_mono_left fun x _ hx => ?_
    simp only [decide_eq_true_eq] at hx ⊢
    obtain ⟨C, D, h1, h2, h3⟩ := hx
    exact ⟨C, D, h1, h2, h3.tail h.left⟩
  obtain ⟨l1, l2, hl⟩ := List.append_of_mem hr
  rw [hl, List.countP_append, List.countP_append, List.countP_cons_of_neg (by simpa using no_hiddenChain hh r.lhs),
    List.countP_cons_of_pos (by simpa using ⟨r.lhs, B, .refl, h, .refl⟩)]
  have h1 := hmono l1
  have h2 := hmono l2
  omega

open Classical in
/-- number of symbols at the end of a string that can become empty -/
noncomputable def emptyEnd (g : Grammar) (α : List Sym) : Nat := (α.reverse.takeWhile (fun X => Derives g.rules [X] [])).length

open Classical in
theorem emptyEnd_snoc (α : List Sym) (X : Sym) : emptyEnd g (α ++ [X]) ≤ emptyEnd g α + 1 := by
  unfold emptyEnd
  rw [List.reverse_append, List.reverse_singleton, List.singleton_append, List.takeWhile_cons]
  split <;> simp

theorem derives_append_nil {rules : List Rule} {xs ys : List Sym} {u v : List Nat} (h1 : Derives rules xs u) (h2 : Derives rules ys v) : Derives rules (xs ++ ys) (u ++ v) := by
  induction h1 with
  | nil => exact h2
  | eps _ ih => exact .eps ih
  | term _ ih => exact .term ih
  | nonterm hr hd _ _ ih => rw [List.append_assoc]; exact .nonterm hr hd ih

open Classical in
theorem emptyEnd_all : ∀ (β α : List Sym), β.length ≤ emptyEnd g (α ++ β) → Derives g.rules β [] := by
  intro β
  induction β using List.reverseRecOn with
  | nil => intro _ _; exact .nil
  | append_singleton β X ih =>
    intro α hlen
    rw [← List.append_assoc, List.length_append, List.length_singleton] at hlen
    unfold emptyEnd at hlen
    rw [List.reverse_append, List.reverse_singleton, List.singleton_append, List.takeWhile_cons] at hlen
    split at hlen
    · rename_i hX
      simp only [decide_eq_true_eq] at hX
      simp only [List.length_cons] at hlen
      have h1 : Derives g.rules β [] := ih α (by unfold emptyEnd; omega)
      simpa using derives_append_nil h1 hX
    · simp at hlen

theorem derives_leadingEps (rules : List Rule) (rhs : List Sym) : Derives rules (rhs.take (leadingEps rhs)) [] := by
  induction rhs with
  | nil => exact .nil
  | cons s ss ih =>
    by_cases hs : s = .eps
    · subst hs; rw [leadingEps_cons_eps]; exact .eps ih
    · rw [leadingEps_cons_ne hs]; exact .nil

/-- an item: the symbols before its dot are at the end of the string, and if more symbols at the end can become empty, left recursion is behind them -/
def ItemRoom (g : Grammar) (M : Nat) (α : List Sym) (i : Nat) (dot : Nat) : Prop :=
  ∃ r, g.rules[i]? = some r ∧ leadingEps r.rhs ≤ dot ∧ dot ≤ r.rhs.length ∧ (∃ α0, α = α0 ++ (r.rhs.take dot).drop (leadingEps r.rhs)) ∧
    emptyEnd g α ≤ (dot - leadingEps r.rhs) + M * (hiddenRank g r.lhs + 1)

theorem itemAfter_room (hh : NoHiddenLeftRecursion g) {M : Nat} (hM : ∀ r ∈ g.rules, r.rhs.length ≤ M) {α : List Sym} {it : Item} (h : ItemAfter g kind α it) :
    (it.rule = none → α = []) ∧ ∀ i, it.rule = some i → ItemRoom g M α i it.dot := by
  induction h with
  | start => exact ⟨fun _ => rfl, by simp⟩
  | @closure α it it' h hs ih =>
    obtain ⟨A, j, r', x, h1, h2, rfl, h4, rfl⟩ := hs
    refine ⟨by simp, fun i hi => ?_⟩
    simp only [Option.some.injEq] at hi
    subst hi
    refine ⟨r', h2, Nat.le_refl _, leadingEps_le _, ⟨α, by simp⟩, ?_⟩
    simp only [Nat.sub_self, Nat.zero_add]
    cases hr : it.rule with
    | none => rw [ih.1 hr]; simp [emptyEnd]
    | some i =>
      obtain ⟨r, hi, hl, hd, ⟨α0, hα⟩, hb⟩ := ih.2 i hr
      have hrm : r ∈ g.rules := List.mem_of_getElem? hi
      have hMr := hM r hrm
      have hlen : ((r.rhs.take it.dot).drop (leadingEps r.rhs)).length = it.dot - leadingEps r.rhs := by simp; omega
      have hge : M ≤ M * (hiddenRank g r'.lhs + 1) := Nat.le_mul_of_pos_right _ (by omega)
      by_cases hc : emptyEnd g α ≤ it.dot - leadingEps r.rhs
      · omega
      · have hnull : Derives g.rules ((r.rhs.take it.dot).drop (leadingEps r.rhs)) [] := emptyEnd_all _ α0 (by rw [← hα, hlen]; omega)
        have htake : r.rhs.take it.dot = r.rhs.take (leadingEps r.rhs) ++ (r.rhs.take it.dot).drop (leadingEps r.rhs) := by
          have h0 := List.take_append_drop (leadingEps r.rhs) (r.rhs.take it.dot)
          rw [List.take_take, Nat.min_eq_left hl] at h0
          exact h0.symm
        have hd0 : Derives g.rules (r.rhs.take it.dot) [] := by rw [htake]; exact derives_append_nil (derives_leadingEps _ _) hnull
        have haft : r.rhs[it.dot]? = some (.nt r'.lhs) := by
          have := h1
          simpa [Item.after, hr, ruleRhs, hi] using this
        have hsplit : r.rhs = r.rhs.take it.dot ++ .nt r'.lhs :: r.rhs.drop (it.dot + 1) := by
          rw [← lr_drop_of_get haft, List.take_append_drop]
        have hle : LeftStep g r.lhs r'.lhs := ⟨r, hrm, _, _, rfl, hsplit, hd0⟩
        have h5 := hiddenRank_mono hle
        by_cases hz : it.dot - leadingEps r.rhs = 0
        · have := Nat.mul_le_mul_left M (Nat.add_le_add_right h5 1)
          omega
        · have hst : strip (r.rhs.take it.dot) ≠ [] := by
            have hlt : leadingEps r.rhs < r.rhs.length := by omega
            have hne : r.rhs[leadingEps r.rhs] ≠ .eps := by
              have := leadingEps_stop r.rhs
              rw [List.getElem?_eq_getElem hlt] at this
              simpa using this
            intro h0
            have hm : r.rhs[leadingEps r.rhs] ∈ strip (r.rhs.take it.dot) := by
              refine List.mem_filter.mpr ⟨?_, by simpa using hne⟩
              exact List.mem_iff_getElem.mpr ⟨leadingEps r.rhs, by simp; omega, by simp⟩
            rw [h0] at hm
            cases hm
          have h6 := hiddenRank_lt hh hrm (B := r'.lhs) ⟨r, hrm, _, _, rfl, hsplit, hd0, hst⟩
          have := Nat.mul_le_mul_left M (Nat.succ_le_succ (Nat.succ_le_of_lt h6))
          simp only [Nat.succ_eq_add_one, Nat.mul_add, Nat.mul_one] at this hb ⊢
          omega
  | @goto α it X h h1 h2 ih =>
    refine ⟨fun hn => absurd hn h2, fun i hi => ?_⟩
    obtain ⟨r, hi', hl, hd, ⟨α0, hα⟩, hb⟩ := ih.2 i hi
    have haft : r.rhs[it.dot]? = some X := by
      have h0 : it.rule = some i := hi
      have := h1
      simpa [Item.after, h0, ruleRhs, hi'] using this
    have hlt := getElem?_lt haft
    refine ⟨r, hi', by simp only; omega, by simp only; omega, ⟨α0, ?_⟩, ?_⟩
    · simp only
      rw [hα, List.append_assoc, List.take_add_one, haft, Option.toList_some, List.drop_append_of_le_length (by simp; omega)]
    · have := emptyEnd_snoc (g := g) α X
      simp only
      omega

theorem emptyEnd_bound (wf : g.WF) (hv : LoopInv g kind gr []) (hh : NoHiddenLeftRecursion g) {M : Nat} (hM : ∀ r ∈ g.rules, r.rhs.length ≤ M) {α : List Sym} {q : Nat}
    (hl : Leads gr.edges α q) {s : List Item} (hs : gr.sets[q]? = some s) : emptyEnd g α ≤ M + M * (g.rules.length + 1) := by
  obtain ⟨it, hit⟩ := List.exists_mem_of_ne_nil _ (hv.base.nonempty _ _ hs)
  obtain ⟨it', h1, h2, h3⟩ := (state_cores wf hv hl s hs (it.rule, it.dot)).mp ⟨it, hit, rfl, rfl⟩
  obtain ⟨h4, h5⟩ := itemAfter_room hh hM h1
  cases hr : it'.rule with
  | none => rw [h4 hr]; simp [emptyEnd]
  | some i =>
    obtain ⟨r, h6, h7, h8, _, h9⟩ := h5 i hr
    have hMr := hM r (List.mem_of_getElem? h6)
    have := Nat.mul_le_mul_left M (Nat.add_le_add_right (hiddenRank_le (g := g) r.lhs) 1)
    omega

/-! ## The size of a stack -/

open Classical in
theorem stack_room (wf : g.WF) (hv : LoopInv g kind gr []) (hh : NoHiddenLeftRecursion g) {M : Nat} (hM : ∀ r ∈ g.rules, r.rhs.length ≤ M) {stk : List StackSym}
    {ts : List (PTree T)} (h : StackOk g gr stk ts) :
    (∃ q rest, stk = .state q :: rest ∧ Leads gr.edges (ts.map PTree.rootSym).reverse q) ∧
    ts.length ≤ (ts.takeWhile (fun t => t.tokens.length = 0)).length + (PTree.tokensList ts).length * (M + M * (g.rules.length + 1) + 1) ∧
    (ts.takeWhile (fun t => t.tokens.length = 0)).length ≤ emptyEnd g (ts.map PTree.rootSym).reverse := by
  induction h with
  | base => exact ⟨⟨0, [], rfl, .nil⟩, by simp, by simp⟩
  | @push q q' rest ts x X t hst he hx ht ih =>
    obtain ⟨⟨q0, rest0, e, hl⟩, h1, h2⟩ := ih
    simp only [List.cons.injEq, StackSym.state.injEq] at e
    obtain ⟨rfl, rfl⟩ := e
    obtain ⟨hX, _⟩ := isParseTree_rootSym ht
    have hl' : Leads gr.edges ((t :: ts).map PTree.rootSym).reverse q' := by
      rw [List.map_cons, List.reverse_cons, hX]
      exact .snoc hl he
    refine ⟨⟨q', _, rfl, hl'⟩, ?_⟩
    obtain ⟨s, hs⟩ := hst.range hv.base
    have hK := emptyEnd_bound wf hv hh hM hl hs
    simp only [List.takeWhile_cons, PTree.tokensList, List.length_cons, List.length_append, Nat.add_mul]
    by_cases hz : t.tokens.length = 0
    · rw [hz]
      have hnull : Derives g.rules [t.rootSym] [] := by
        have := forest_derives ht
        rw [← hX] at this
        simpa [PTree.tokensList, List.length_eq_zero_iff.mp hz] using this
      simp only [decide_true, if_true, List.length_cons, Nat.zero_mul, Nat.zero_add]
      refine ⟨by omega, ?_⟩
      unfold emptyEnd at h2 ⊢
      rw [List.reverse_reverse] at h2 ⊢
      rw [List.map_cons, List.takeWhile_cons]
      simp only [hnull, decide_true, if_true, List.length_cons]
      omega
    · simp only [hz, decide_false, Bool.false_eq_true, if_false, List.length_nil, Nat.zero_add]
      refine ⟨?_, by omega⟩
      have := Nat.mul_le_mul_right (M + M * (g.rules.length + 1) + 1) (Nat.one_le_iff_ne_zero.mpr hz)
      omega

theorem le_sum_mem {a : Nat} : ∀ {l : List Nat}, a ∈ l → a ≤ l.sum := by
  intro l
  induction l with
  | nil => intro h; cases h
  | cons b l ih =>
    intro h
    rw [List.sum_cons]
    rcases List.mem_cons.mp h with rfl | h
    · omega
    · have := ih h; omega

theorem stackOk_trees {stk : List StackSym} {ts : List (PTree T)} (h : StackOk g gr stk ts) : ∀ t ∈ ts, ∃ X, IsParseTree g.rules X t := by
  induction h with
  | base => intro t ht; cases ht
  | push _ _ _ hp ih =>
    intro t ht
    rcases List.mem_cons.mp ht with rfl | ht
    · exact ⟨_, hp⟩
    · exact ih t ht

/-- the number of inner nodes of trees on a stack is bounded, if there are at most `L` tokens -/
theorem stack_inner (wf : g.WF) (hv : LoopInv g kind gr []) (hc : NoCycle g) (hh : NoHiddenLeftRecursion g) (L : Nat) :
    ∃ B, ∀ (stk : List StackSym) (ts : List (PTree T)), StackOk g gr stk ts → (PTree.tokensList ts).length ≤ L → PTree.innerList ts ≤ B := by
  obtain ⟨M, hM⟩ : ∃ M, ∀ r ∈ g.rules, r.rhs.length ≤ M := ⟨(g.rules.map (·.rhs.length)).sum, fun r hr => le_sum_mem (List.mem_map.mpr ⟨r, hr, rfl⟩)⟩
  refine ⟨(M + M * (g.rules.length + 1) + L * (M + M * (g.rules.length + 1) + 1)) * (M + 1) ^ (L * (g.rules.length + 1) + g.rules.length + 1), fun stk ts h hL => ?_⟩
  obtain ⟨⟨q, rest, rfl, hl⟩, h1, h2⟩ := stack_room wf hv hh hM h
  obtain ⟨s, hs⟩ := h.range hv.base
  have hK := emptyEnd_bound wf hv hh hM hl hs
  have hsize : ∀ t ∈ ts, t.inner ≤ (M + 1) ^ (L * (g.rules.length + 1) + g.rules.length + 1) := by
    intro t ht
    obtain ⟨X, hX⟩ := stackOk_trees h t ht
    refine tree_size hc hM _ X t hX ?_
    have htl : t.tokens.length ≤ L := by
      obtain ⟨a, b, rfl⟩ := List.append_of_mem ht
      rw [tokensList_append', PTree.tokensList] at hL
      simp at hL
      omega
    unfold treeRank
    split
    · have := selfRank_le (g := g) (by assumption)
      have := Nat.mul_le_mul_right (g.rules.length + 1) htl
      omega
    · omega
  refine (innerList_le hsize).trans (Nat.mul_le_mul_right _ ?_)
  have := Nat.mul_le_mul_right (M + M * (g.rules.length + 1) + 1) hL
  omega

/-! ## The bound -/

theorem tokensList_reverse_length (ts : List (PTree T)) : (PTree.tokensList ts.reverse).length = (PTree.tokensList ts).length := by
  induction ts with
  | nil => rfl
  | cons t ts ih => rw [List.reverse_cons, tokensList_append']; simp [PTree.tokensList, ih]; omega

theorem size_weight (hv : LoopInv g kind gr []) (hm : GFollows g gr m) {N : Nat} (hN : ∀ a, (input N).1 ≠ .tok a) {B : Nat}
    (hB : ∀ (stk : List StackSym) (ts : List (PTree T)), StackOk g gr stk ts → (PTree.tokensList ts).length ≤ N → PTree.innerList ts ≤ B) :
    Weight m input (fun k pos c => ∃ stk ev, c = .live stk ev ∧ ∃ ts : List (PTree T), StackOk g gr stk ts ∧ (PTree.tokensList ts).length = pos ∧ pos ≤ N ∧
      (N - pos) + (B - PTree.innerList ts) ≤ k) := by
  refine ⟨?_, ?_⟩
  · rintro k pos c ⟨stk, ev, rfl, ts, hst, htk, hp, hk⟩ a ha c' hc'
    obtain ⟨q, rest, rfl⟩ := hst.head
    obtain ⟨s, hs⟩ := hst.range hv.base
    obtain ⟨l, hl, ha⟩ := actsOf_live ha
    cases a with
    | shift => simp [newOf] at hc'
    | reduce i =>
      have hc := ((hm.acts q _ l (getElem?_lt hs) hl).2.2.2 i).mp ha
      obtain ⟨r, p, rest', cs, ts', h1, h2, h3, h4, h5, h6, h7, h8, h9⟩ := glr_reduce hv hm hst hc
      rcases h9 with ⟨_, q', _, hg, hst'⟩ | ⟨_, _, hg, _, _⟩
      · simp only [newOf, linReduce, h3, h5, hg] at hc'
        simp only [List.mem_singleton] at hc'
        have htk' : (PTree.tokensList (.node r cs :: ts')).length = pos := by
          rw [← htk, h6, tokensList_append', List.length_append, tokensList_reverse_length]
          simp [PTree.tokensList, PTree.tokens]
        have hin' : PTree.innerList (.node r cs :: ts') = PTree.innerList ts + 1 := by
          rw [h6, innerList_append, innerList_reverse]
          simp only [PTree.innerList, PTree.inner]
          omega
        have := hB _ _ hst' (by omega)
        exact ⟨k - 1, by omega, _, _, hc', _, hst', htk', hp, by omega⟩
      · simp [newOf, linReduce, h3, h5, hg] at hc'
  · rintro k pos c ⟨stk, ev, rfl, ts, hst, htk, hp, hk⟩ ha
    obtain ⟨q, rest, rfl⟩ := hst.head
    obtain ⟨s, hs⟩ := hst.range hv.base
    obtain ⟨l, hl, ha⟩ := actsOf_live ha
    obtain ⟨a, q', htk', hed⟩ := (hm.acts q _ l (getElem?_lt hs) hl).2.2.1.mp ha
    have hlt : pos < N := by
      rcases Nat.lt_or_ge pos N with h | h
      · exact h
      · obtain rfl : pos = N := by omega
        exact absurd htk' (hN a)
    refine ⟨k - 1, by omega, .state q' :: .terminal (.tok a) :: .state q :: rest, ev ++ [.shift (.tok a) (input pos).2], ?_, .leaf a (input pos).2 :: ts,
      .push hst hed rfl (isParseTree_term a _), by simp [PTree.tokensList, PTree.tokens, htk], hlt, by simp only [PTree.innerList, PTree.inner]; omega⟩
    simp only [shiftC, htk', hm.shift q a q' hed]

/-- a parser for a grammar without cycles and hidden left recursion returns, if the tokens end (or if there is an error among them) -/
theorem glr_stops_at (wf : g.WF) (hv : LoopInv g kind gr []) (hm : GFollows g gr m) (hc : NoCycle g) (hh : NoHiddenLeftRecursion g) {N : Nat} (hN : ∀ a, (input N).1 ≠ .tok a) :
    ∃ bound, ∀ fuel, bound ≤ fuel → ∀ ev p, glrParse m input fuel ≠ .running ev p := by
  obtain ⟨B, hB⟩ := stack_inner (T := T) wf hv hc hh N
  refine ⟨N + B + 2, fun fuel hf ev p => ?_⟩
  exact glrParse_stops hv hm (size_weight hv hm hN hB) (k := N + B)
    ⟨_, _, rfl, [], by rw [hm.entry]; exact .base, rfl, by omega, by simp [PTree.innerList]⟩ hf ev p

theorem glr_stops_eps (wf : g.WF) (hv : LoopInv g kind gr []) (hm : GFollows g gr m) (hc : NoCycle g) (hh : NoHiddenLeftRecursion g) {w : List (Nat × T)} (hin : StreamIs input w) :
    ∃ bound, ∀ fuel, bound ≤ fuel → ∀ ev p, glrParse m input fuel ≠ .running ev p :=
  glr_stops_at wf hv hm hc hh (N := w.length) (by rw [hin.2]; rintro a ⟨⟩)

/-! ## Grammars without empty rules -/

theorem derives_nil_strip (he : EpsFree g) {α : List Sym} {w : List Nat} (h : Derives g.rules α w) : w = [] → strip α = [] := by
  induction h with
  | nil => intro _; rfl
  | eps _ ih => intro h; simpa [strip] using ih h
  | term _ _ => intro h; cases h
  | nonterm hr _ _ ih _ => intro h; exact absurd (ih (List.append_eq_nil_iff.mp h).1) (he _ hr)

theorem noCycle_of_units (he : EpsFree g) (hu : NoUnitCycle g) : NoCycle g := by
  have h1 : ∀ A B, SelfStep g A B → UnitRule g A B := by
    rintro A B ⟨r, hr, α, β, hl, e, ha, hb⟩
    refine ⟨r, hr, hl, ?_⟩
    have ea := derives_nil_strip he ha rfl
    have eb := derives_nil_strip he hb rfl
    unfold strip at *
    rw [e, List.filter_append, ea, List.filter_cons_of_pos (by simp), eb]
    rfl
  intro A h
  refine hu A ?_
  have : ∀ A B, Relation.TransGen (SelfStep g) A B → UnitChain g A B := by
    intro A B h
    induction h using Relation.TransGen.head_induction_on with
    | single h => exact .one (h1 _ _ h)
    | head h _ ih => exact .more (h1 _ _ h) ih
  exact this A A h

theorem noHidden_of_epsFree (he : EpsFree g) : NoHiddenLeftRecursion g := by
  rintro A B ⟨r, _, α, β, _, _, ha, hs⟩
  exact absurd (derives_nil_strip he ha rfl) hs

end Verif
