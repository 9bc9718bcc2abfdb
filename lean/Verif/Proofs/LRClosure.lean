import Verif.Proofs.First
import Verif.Proofs.LROut
import Verif.Spec.LR
import Mathlib.Data.List.Nodup
import Mathlib.Data.List.Perm.Subperm

/-! # The closure loop computes the textbook closure -/

set_option autoImplicit false

namespace Verif

/-- conditions under which generation does not panic -/
def SafeFor (g : Grammar) (kind : LRKind) : Prop := ShortRhs g ∧ (kind.hasLa = true → EpsLeading g)

/-- the first sets the generator works with -/
def FsOk (g : Grammar) (kind : LRKind) (fs : SymSets) : Prop := kind.hasLa = true → FirstExact g fs

variable {g : Grammar} {kind : LRKind}

theorem firstOf_iff {ss : List Sym} {x : Sym} (hx : x.isTerm) : FirstOf g ss x ↔ FirstIn g.rules x ss :=
  ⟨fun ⟨_, h⟩ => (firstIn_strip hx).mp (firstIn_back hx h .here), firstIn_rewrites hx⟩

theorem LaOk.isTerm (wf : g.WF) {la : Option Sym} (h : LaOk g kind la) {a : Sym} (ha : la = some a) : a.isTerm := by
  unfold LaOk at h
  split at h
  · obtain ⟨b, h1, h2⟩ := h
    rw [ha] at h1
    simp at h1
    subst h1
    rcases h2 with rfl | h2
    · trivial
    · obtain ⟨t, rfl⟩ := wf.ts _ h2
      trivial
  · rw [ha] at h; simp at h

theorem ruleRhs_some {i : Nat} {r : Rule} (h : g.rules[i]? = some r) : ruleRhs g (some i) = r.rhs := by simp [ruleRhs, h]

theorem ruleRhs_mem {r : RuleIdx} : ∀ X ∈ ruleRhs g r, (∃ ru ∈ g.rules, X ∈ ru.rhs ∧ ruleRhs g r = ru.rhs) ∨ (r = none ∧ X = g.entry) := by
  intro X hX
  cases r with
  | none => simp [ruleRhs] at hX; exact .inr ⟨rfl, hX⟩
  | some i =>
    simp only [ruleRhs] at hX ⊢
    cases h : g.rules[i]? with
    | none => simp [h] at hX
    | some ru => simp [h] at hX; exact .inl ⟨ru, List.mem_of_getElem? h, hX, by simp⟩

theorem ruleRhs_nt_declared (wf : g.WF) {r : RuleIdx} {A : Nat} (h : Sym.nt A ∈ ruleRhs g r) : Sym.nt A ∈ g.nonTerminals := by
  rcases ruleRhs_mem _ h with ⟨ru, h1, h2, _⟩ | ⟨_, h2⟩
  · exact wf.nt_declared ru h1 A h2
  · obtain ⟨E, h3, h4⟩ := wf.entry_declared
    rw [h2, h3]; exact h4

theorem ruleRhs_t_declared (wf : g.WF) {r : RuleIdx} {a : Nat} (h : Sym.t a ∈ ruleRhs g r) : Sym.t a ∈ g.terminals := by
  rcases ruleRhs_mem _ h with ⟨ru, h1, h2, _⟩ | ⟨_, h2⟩
  · exact wf.t_declared ru h1 a h2
  · obtain ⟨E, h3, h4⟩ := wf.entry_declared
    rw [h3] at h2; cases h2

theorem ruleRhs_no_eof (wf : g.WF) {r : RuleIdx} : Sym.eof ∉ ruleRhs g r := by
  intro h
  rcases ruleRhs_mem _ h with ⟨ru, h1, h2, _⟩ | ⟨_, h2⟩
  · exact wf.no_eof ru h1 h2
  · obtain ⟨E, h3, h4⟩ := wf.entry_declared
    rw [h3] at h2; cases h2

/-- terminals that start a sequence occur in it or in a rule -/
theorem firstIn_declared (wf : g.WF) {x : Sym} (hx : x.isTerm) {ss : List Sym} (h : FirstIn g.rules x ss) : x ∈ ss ∨ x ∈ g.terminals := by
  have key : ∀ r ∈ g.rules, x ∈ r.rhs → x ∈ g.terminals := by
    intro r hr hm
    match x, hx with
    | .eof, _ => exact (wf.no_eof r hr hm).elim
    | .t a, _ => exact wf.t_declared r hr a hm
  induction h with
  | here => exact .inl List.mem_cons_self
  | eps _ ih => exact ih.imp (List.mem_cons_of_mem _) id
  | ntHere hr _ ih => exact ih.elim (fun h => .inr (key _ hr h)) .inr
  | ntSkip _ _ _ ih => exact ih.imp (List.mem_cons_of_mem _) id

theorem nul_not_term {a : Sym} (ha : a.isTerm) {ss : List Sym} : ¬ Nul g.rules (ss ++ [a]) := by
  rw [nul_append]
  rintro ⟨_, h⟩
  cases a <;> first | exact ha.elim | cases h

theorem leadingEps_cons_eps (ss : List Sym) : leadingEps (.eps :: ss) = leadingEps ss + 1 := by simp [leadingEps]

theorem leadingEps_cons_ne {s : Sym} (hs : s ≠ .eps) (ss : List Sym) : leadingEps (s :: ss) = 0 := by simp [leadingEps, hs]

theorem leadingEps_le (ss : List Sym) : leadingEps ss ≤ ss.length := (List.takeWhile_prefix _).length_le

theorem leadingEps_get {ss : List Sym} {d : Nat} (h : d < leadingEps ss) : ss[d]? = some .eps := by
  induction ss generalizing d with
  | nil => simp [leadingEps] at h
  | cons s ss ih =>
    by_cases hs : s = .eps
    · subst hs
      rw [leadingEps_cons_eps] at h
      cases d with
      | zero => rfl
      | succ d => simp; exact ih (by omega)
    · rw [leadingEps_cons_ne hs] at h; omega

theorem leadingEps_stop (ss : List Sym) : ss[leadingEps ss]? ≠ some .eps := by
  induction ss with
  | nil => simp
  | cons s ss ih =>
    by_cases hs : s = .eps
    · subst hs; rw [leadingEps_cons_eps]; simpa using ih
    · rw [leadingEps_cons_ne hs]; simpa using hs

/-- an epsilon further right means epsilon is not only in front -/
theorem epsLeading_get (h : EpsLeading g) {r : Rule} (hr : r ∈ g.rules) {d : Nat} (h1 : leadingEps r.rhs ≤ d) : r.rhs[d]? ≠ some .eps := by
  intro h2
  apply h r hr
  rw [List.mem_iff_getElem?]
  exact ⟨d - leadingEps r.rhs, by rw [List.getElem?_drop, ← h2]; congr 1; omega⟩

theorem epsLeading_mid (h : EpsLeading g) {r : RuleIdx} {d : Nat} {X : Sym} (h1 : (ruleRhs g r)[d]? = some X) (hX : X ≠ .eps)
    (h2 : (ruleRhs g r)[d + 1]? = some .eps) : False := by
  cases r with
  | none => simp [ruleRhs] at h2
  | some i =>
    cases hi : g.rules[i]? with
    | none => simp [ruleRhs, hi] at h1
    | some ru =>
      rw [ruleRhs_some hi] at h1 h2
      refine epsLeading_get h (List.mem_of_getElem? hi) ?_ h2
      by_contra hc
      have := leadingEps_get (ss := ru.rhs) (d := d) (by omega)
      rw [h1] at this
      simp at this
      exact hX this

theorem getElem?_lt {α : Type} {l : List α} {i : Nat} {x : α} (h : l[i]? = some x) : i < l.length := by
  by_contra hc
  rw [List.getElem?_eq_none (by omega)] at h
  simp at h

theorem ruleRhs_length (hs : ShortRhs g) (r : RuleIdx) : (ruleRhs g r).length ≤ 255 := by
  cases r with
  | none => simp [ruleRhs]
  | some i =>
    cases hi : g.rules[i]? with
    | none => simp [ruleRhs, hi]
    | some ru => rw [ruleRhs_some hi]; exact hs ru (List.mem_of_getElem? hi)

/-- the lookaheads computed are those of the specification -/
theorem lookaheads_spec (wf : g.WF) {fs : SymSets} (hfs : FsOk g kind fs) {it : Item} (hi : ItemOk g kind it) {A : Nat}
    (ha : it.after g = some (.nt A)) {F : Prop} :
    Out F (SafeFor g kind) (fun las => ∀ x, x ∈ las ↔ ExpandsWith g it x) (lookaheads g fs it) := by
  unfold lookaheads
  have hlt : it.dot < (ruleRhs g it.rule).length := getElem?_lt ha
  split
  · rename_i hd
    intro hs
    have := ruleRhs_length hs.1 it.rule
    simp only [u8Size] at hd
    omega
  · cases hla : it.la with
    | none => intro x; simp [ExpandsWith, hla]
    | some a =>
      have hat : a.isTerm := hi.la.isTerm wf hla
      have hk : kind.hasLa = true := by
        have := hi.la
        unfold LaOk at this
        split at this
        · assumption
        · rw [hla] at this; simp at this
      simp only
      have hmem : ∀ X, (ruleRhs g it.rule)[it.dot + 1]? = some X → (ruleRhs g it.rule).drop (it.dot + 1) = X :: (ruleRhs g it.rule).drop (it.dot + 2) := by
        intro X hX
        have hl := getElem?_lt hX
        rw [List.drop_eq_getElem_cons hl]
        rw [List.getElem?_eq_getElem hl] at hX
        simp at hX
        rw [hX]
      cases hf : (ruleRhs g it.rule)[it.dot + 1]? with
      | none =>
        have hdrop : (ruleRhs g it.rule).drop (it.dot + 1) = [] := List.drop_eq_nil_of_le (by rw [List.getElem?_eq_none_iff] at hf; exact hf)
        intro x
        simp only [List.mem_singleton, ExpandsWith, hla, hdrop, List.nil_append]
        constructor
        · rintro rfl; exact ⟨a, rfl, hat, (firstOf_iff hat).mpr .here⟩
        · rintro ⟨b, rfl, hb, h⟩
          rw [firstOf_iff hb] at h
          cases h with
          | here => rfl
          | eps h => exact hat.elim
          | ntHere _ _ => exact hat.elim
          | ntSkip _ _ _ => exact hat.elim
      | some f =>
        cases f with
        | eps => intro hs; exact epsLeading_mid (hs.2 hk) ha (by simp) hf
        | eof => exact (ruleRhs_no_eof wf (List.mem_of_getElem? hf)).elim
        | t b =>
          intro x
          simp only [List.mem_singleton, ExpandsWith, hla, hmem _ hf, List.cons_append]
          constructor
          · rintro rfl; exact ⟨.t b, rfl, trivial, (firstOf_iff (x := .t b) trivial).mpr .here⟩
          · rintro ⟨c, rfl, hc, h⟩
            rw [firstOf_iff hc] at h
            cases h with
            | here => rfl
        | nt B =>
          have hseq : ∀ C, Sym.nt C ∈ (ruleRhs g it.rule).drop (it.dot + 1) ++ [a] → Sym.nt C ∈ g.nonTerminals := by
            intro C hC
            rcases List.mem_append.mp hC with h | h
            · exact ruleRhs_nt_declared wf (List.mem_of_mem_drop h)
            · simp at h; subst h; exact hat.elim
          obtain ⟨out, o1, _, o3, o4, o5⟩ := (hfs hk).ofSeq hseq
          show Out F (SafeFor g kind) _ (firstOfSeq ((ruleRhs g it.rule).drop (it.dot + 1) ++ [a]) fs >>= fun f => .ok (f.map some))
          rw [res_bind_eq o1]
          intro x
          simp only [List.mem_map, ExpandsWith, hla]
          constructor
          · rintro ⟨b, hb, rfl⟩
            have hbt : b.isTerm := by
              cases b with
              | eps => exact (nul_not_term hat (o4.mp hb).2).elim
              | nt C => exact (o5 C hb).elim
              | eof => trivial
              | t c => trivial
            exact ⟨b, rfl, hbt, (firstOf_iff hbt).mpr ((o3 b hbt).mp hb)⟩
          · rintro ⟨b, rfl, hb, h⟩
            exact ⟨b, (o3 b hb).mpr ((firstOf_iff hb).mp h), rfl⟩

theorem expandsWith_ok (wf : g.WF) {it : Item} (hl : LaOk g kind it.la) {x : Option Sym} (h : ExpandsWith g it x) : LaOk g kind x := by
  unfold LaOk at hl ⊢
  split at hl
  · obtain ⟨a, ha, h2⟩ := hl
    simp only [ExpandsWith, ha] at h
    obtain ⟨b, rfl, hb, hf⟩ := h
    rw [if_pos ‹_›]
    refine ⟨b, rfl, ?_⟩
    rcases firstIn_declared wf hb ((firstOf_iff hb).mp hf) with h3 | h3
    · rcases List.mem_append.mp h3 with h4 | h4
      · have h4 := List.mem_of_mem_drop h4
        cases b with
        | t c => exact .inr (ruleRhs_t_declared wf h4)
        | eof => exact .inl rfl
        | eps => exact hb.elim
        | nt C => exact hb.elim
      · simp at h4; subst h4; exact h2
    · exact .inr h3
  · rw [if_neg ‹_›]
    simpa only [ExpandsWith, hl] using h

theorem skipEps_spec {F S : Prop} : ∀ (rhs : List Sym) (it : Item), (S → it.dot + rhs.length ≤ 255) → it.dot < u8Size →
    Out F S (fun it' => it' = { it with dot := it.dot + leadingEps rhs } ∧ it'.dot < u8Size) (skipEps rhs it) := by
  intro rhs
  induction rhs with
  | nil => intro it _ hd; simp [skipEps, Out, leadingEps, hd]
  | cons s rhs ih =>
    intro it hs hd
    by_cases h : s = .eps
    · subst h
      simp only [skipEps]
      split
      · refine (ih _ ?_ (by assumption)).imp ?_
        · intro h; have := hs h; simp only [List.length_cons] at this; simp only; omega
        · rintro it' ⟨rfl, h2⟩
          refine ⟨?_, h2⟩
          rw [leadingEps_cons_eps]
          simp only [Item.mk.injEq, true_and, and_true]
          omega
      · intro h
        have := hs h
        simp only [List.length_cons] at this
        simp only [u8Size] at *
        omega
    · have : skipEps (s :: rhs) it = .ok it := by cases s <;> first | rfl | exact (h rfl).elim
      rw [this]
      exact ⟨by rw [leadingEps_cons_ne h]; rfl, hd⟩

theorem mem_rulesFor {A i : Nat} : i ∈ rulesFor g (.nt A) ↔ ∃ r, g.rules[i]? = some r ∧ r.lhs = A := by
  simp only [rulesFor, List.mem_filter, List.mem_range, decide_eq_true_eq]
  simp only [ruleLhs]
  constructor
  · rintro ⟨h1, h2⟩
    refine ⟨g.rules[i], List.getElem?_eq_getElem h1, ?_⟩
    rw [List.getElem?_eq_getElem h1] at h2
    simpa using h2
  · rintro ⟨r, h1, h2⟩
    exact ⟨getElem?_lt h1, by rw [h1]; simp [h2]⟩

/-- all items -/
def itemUniverse (g : Grammar) (kind : LRKind) : List Item :=
  (none :: (List.range g.rules.length).map some).flatMap fun r => (List.range u8Size).flatMap fun d =>
    (if kind.hasLa then (Sym.eof :: g.terminals).map some else [none]).map fun l => ⟨r, d, l⟩

theorem mem_universe {it : Item} (h : ItemOk g kind it) : it ∈ itemUniverse g kind := by
  simp only [itemUniverse, List.mem_flatMap, List.mem_map]
  refine ⟨it.rule, ?_, it.dot, ?_, it.la, ?_, rfl⟩
  · cases hr : it.rule with
    | none => simp
    | some i => exact List.mem_cons_of_mem _ (List.mem_map.mpr ⟨i, List.mem_range.mpr (h.rule i hr), rfl⟩)
  · exact List.mem_range.mpr h.small
  · have := h.la
    unfold LaOk at this
    split at this
    · rw [if_pos ‹_›]
      obtain ⟨a, h1, h2⟩ := this
      rw [h1]
      exact List.mem_map.mpr ⟨a, by rcases h2 with rfl | h2 <;> simp [*], rfl⟩
    · rw [if_neg ‹_›, this]; simp

/-- enough iterations for a closure -/
def closureFuel (g : Grammar) (kind : LRKind) : Nat := (itemUniverse g kind).length

theorem closureStep_ok (wf : g.WF) {it it' : Item} (hi : ItemOk g kind it) (h : ClosureStep g it it') (hd : it'.dot < u8Size) : ItemOk g kind it' := by
  obtain ⟨A, i, r, x, h1, h2, h3, h4, rfl⟩ := h
  refine ⟨fun j hj => ?_, ?_, hd, expandsWith_ok wf hi.la h4⟩
  · simp at hj; subst hj; exact getElem?_lt h2
  · rw [ruleRhs_some h2]; exact leadingEps_le _

/-- state of the closure loop -/
structure ClosInv (g : Grammar) (kind : LRKind) (it0 : Item) (set stack : List Item) : Prop where
  sorted : SSorted set
  start : it0 ∈ set
  sound : ∀ it ∈ set, Closure g it0 it ∧ ItemOk g kind it
  sub : ∀ it ∈ stack, it ∈ set
  done : ∀ it ∈ set, it ∉ stack → ∀ it', ClosureStep g it it' → it' ∈ set

theorem universe_bound {set : List Item} (hs : SSorted set) (h : ∀ it ∈ set, ItemOk g kind it) : set.length ≤ closureFuel g kind :=
  (hs.nodup.subperm (fun it hit => mem_universe (h it hit))).length_le

/-- what one iteration does: the successors of `top` with rules in `is` are added -/
structure ExpandInv (g : Grammar) (kind : LRKind) (top : Item) (set stack : List Item) (st : List Item × List Item) (added : Item → Prop) : Prop where
  sorted : SSorted st.1
  mono : ∀ it ∈ set, it ∈ st.1
  monoS : ∀ it ∈ stack, it ∈ st.2
  new : ∀ it ∈ st.1, it ∈ set ∨ (ClosureStep g top it ∧ ItemOk g kind it ∧ it ∈ st.2)
  newS : ∀ it ∈ st.2, it ∈ stack ∨ it ∈ st.1
  count : st.2.length + set.length = stack.length + st.1.length
  added : ∀ it, added it → it ∈ st.1

theorem expandTop_spec (wf : g.WF) {fs : SymSets} (hfs : FsOk g kind fs) {top : Item} (hi : ItemOk g kind top) {set stack : List Item}
    (hset : SSorted set) {F : Prop} :
    Out F (SafeFor g kind) (fun st => ExpandInv g kind top set stack st (ClosureStep g top)) (expandTop g fs top (set, stack)) := by
  unfold expandTop
  cases ha : top.after g with
  | none => exact ⟨hset, fun _ h => h, fun _ h => h, fun _ h => .inl h, fun _ h => .inl h, by simp,
      fun it ⟨A, _, _, _, h, _⟩ => by rw [ha] at h; simp at h⟩
  | some X =>
    by_cases hX : ∃ A, X = .nt A
    · obtain ⟨A, rfl⟩ := hX
      simp only
      refine (Out.foldlM (fun pre st => ExpandInv g kind top set stack st (fun it => ∃ i ∈ pre, ∃ r x, g.rules[i]? = some r ∧ ExpandsWith g top x ∧
        it = ⟨some i, leadingEps r.rhs, x⟩)) ?_ ?_).imp ?_
      · exact ⟨hset, fun _ h => h, fun _ h => h, fun _ h => .inl h, fun _ h => .inl h, by simp, fun it ⟨i, h, _⟩ => by simp at h⟩
      · intro pre i post st hl hst
        obtain ⟨r, hr, hlhs⟩ := mem_rulesFor.mp (hl ▸ List.mem_append.mpr (.inr List.mem_cons_self) : i ∈ rulesFor g (.nt A))
        unfold expandRule
        refine (lookaheads_spec wf hfs hi ha).bind fun las hlas => ?_
        refine (Out.foldlM (fun pre' st' => ExpandInv g kind top set stack st' (fun it => (∃ i ∈ pre, ∃ r x, g.rules[i]? = some r ∧ ExpandsWith g top x ∧
          it = ⟨some i, leadingEps r.rhs, x⟩) ∨ ∃ x ∈ pre', it = ⟨some i, leadingEps r.rhs, x⟩)) ?_ ?_).imp ?_
        · exact { hst with added := fun it h => hst.added it (by rcases h with h | ⟨x, hx, _⟩; exact h; simp at hx) }
        · intro pre' x post' st' hl' hst'
          unfold closureAdd
          refine (skipEps_spec (F := F) (S := SafeFor g kind) (ruleRhs g (some i)) ⟨some i, 0, x⟩ ?_ (by simp [u8Size])).bind ?_
          · intro hs; have := ruleRhs_length hs.1 (some i); simpa using this
          · rintro it' ⟨rfl, hd⟩
            rw [ruleRhs_some hr] at *
            simp only [Nat.zero_add] at *
            have hx : ExpandsWith g top x := (hlas x).mp (hl' ▸ List.mem_append.mpr (.inr List.mem_cons_self))
            have hstep : ClosureStep g top ⟨some i, leadingEps r.rhs, x⟩ := ⟨A, i, r, x, ha, hr, hlhs, hx, rfl⟩
            have hok := closureStep_ok wf hi hstep hd
            split
            · rename_i hc
              have hc : (⟨some i, leadingEps r.rhs, x⟩ : Item) ∈ st'.1 := by simpa using hc
              refine { hst' with added := fun it h => ?_ }
              rcases h with h | ⟨y, hy, rfl⟩
              · exact hst'.added it (.inl h)
              · rcases List.mem_append.mp hy with hy | hy
                · exact hst'.added _ (.inr ⟨y, hy, rfl⟩)
                · simp at hy; subst hy; exact hc
            · rename_i hc
              have hc : (⟨some i, leadingEps r.rhs, x⟩ : Item) ∉ st'.1 := by simpa using hc
              refine ⟨sinsert_sorted hst'.sorted, fun it h => mem_sinsert.mpr (.inr (hst'.mono it h)), fun it h => List.mem_cons_of_mem _ (hst'.monoS it h),
                fun it h => ?_, fun it h => ?_, ?_, fun it h => ?_⟩
              · rcases mem_sinsert.mp h with rfl | h
                · exact .inr ⟨hstep, hok, List.mem_cons_self⟩
                · exact (hst'.new it h).imp id (fun ⟨a, b, c⟩ => ⟨a, b, List.mem_cons_of_mem _ c⟩)
              · rcases List.mem_cons.mp h with rfl | h
                · exact .inr (mem_sinsert.mpr (.inl rfl))
                · exact (hst'.newS it h).imp id (fun h => mem_sinsert.mpr (.inr h))
              · have := hst'.count
                rw [sinsert_length hst'.sorted hc]
                simp only [List.length_cons]
                omega
              · rw [mem_sinsert]
                rcases h with h | ⟨y, hy, rfl⟩
                · exact .inr (hst'.added it (.inl h))
                · rcases List.mem_append.mp hy with hy | hy
                  · exact .inr (hst'.added _ (.inr ⟨y, hy, rfl⟩))
                  · simp at hy; subst hy; exact .inl rfl
        · intro st' hst'
          refine { hst' with added := fun it h => hst'.added it ?_ }
          obtain ⟨j, hj, r', x, h1, h2, h3⟩ := h
          rcases List.mem_append.mp hj with hj | hj
          · exact .inl ⟨j, hj, r', x, h1, h2, h3⟩
          · simp at hj
            subst hj
            rw [hr] at h1
            simp at h1
            subst h1
            exact .inr ⟨x, (hlas x).mpr h2, h3⟩
      · intro st hst
        refine { hst with added := fun it h => hst.added it ?_ }
        obtain ⟨B, i, r, x, h1, h2, h3, h4, h5⟩ := h
        rw [ha] at h1
        simp at h1
        subst h1
        exact ⟨i, mem_rulesFor.mpr ⟨r, h2, h3⟩, r, x, h2, h4, h5⟩
    · have : rulesFor g X = [] := by cases X <;> first | rfl | exact (hX ⟨_, rfl⟩).elim
      simp only [this, List.foldlM_nil]
      exact ⟨hset, fun _ h => h, fun _ h => h, fun _ h => .inl h, fun _ h => .inl h, by simp,
        fun it ⟨A, _, _, _, h, _⟩ => by rw [ha] at h; simp at h; exact (hX ⟨A, h⟩).elim⟩

theorem expandLoop_spec (wf : g.WF) {fs : SymSets} (hfs : FsOk g kind fs) {it0 : Item} : ∀ (fuel : Nat) (set stack : List Item),
    ClosInv g kind it0 set stack →
    Out (closureFuel g kind - set.length + stack.length ≤ fuel) (SafeFor g kind)
      (fun s => SSorted s ∧ (∀ it ∈ s, ItemOk g kind it) ∧ ∀ it, it ∈ s ↔ Closure g it0 it) (expandLoop g fs fuel set stack) := by
  intro fuel
  induction fuel with
  | zero =>
    intro set stack hinv
    cases stack with
    | nil =>
      refine ⟨hinv.sorted, fun it h => (hinv.sound it h).2, fun it => ⟨fun h => (hinv.sound it h).1, fun h => ?_⟩⟩
      induction h with
      | self => exact hinv.start
      | step _ hs ih => exact hinv.done _ ih (by simp) _ hs
    | cons top stack => simp [expandLoop, Out]
  | succ fuel ih =>
    intro set stack hinv
    cases stack with
    | nil =>
      refine ⟨hinv.sorted, fun it h => (hinv.sound it h).2, fun it => ⟨fun h => (hinv.sound it h).1, fun h => ?_⟩⟩
      induction h with
      | self => exact hinv.start
      | step _ hs ih => exact hinv.done _ ih (by simp) _ hs
    | cons top stack =>
      have htop := hinv.sub top List.mem_cons_self
      unfold expandLoop
      refine (expandTop_spec wf hfs (hinv.sound top htop).2 hinv.sorted).bind fun st hst => ?_
      have hinv' : ClosInv g kind it0 st.1 st.2 := by
        refine ⟨hst.sorted, hst.mono _ hinv.start, fun it h => ?_, fun it h => ?_, fun it h hn it' hs => ?_⟩
        · rcases hst.new it h with h | ⟨h, h2, _⟩
          · exact hinv.sound it h
          · exact ⟨.step (hinv.sound top htop).1 h, h2⟩
        · rcases hst.newS it h with h | h
          · exact hst.mono _ (hinv.sub it (List.mem_cons_of_mem _ h))
          · exact h
        · by_cases he : it = top
          · subst he; exact hst.added it' hs
          · rcases hst.new it h with h1 | ⟨_, _, h1⟩
            · refine hst.mono _ (hinv.done it h1 ?_ it' hs)
              intro hc
              rcases List.mem_cons.mp hc with hc | hc
              · exact he hc
              · exact hn (hst.monoS it hc)
            · exact (hn h1).elim
      refine (ih st.1 st.2 hinv').weaken ?_ id
      intro hF
      have h1 := hst.count
      have h2 := universe_bound hinv'.sorted (fun it h => (hinv'.sound it h).2)
      have h3 := universe_bound hinv.sorted (fun it h => (hinv.sound it h).2)
      simp only [List.length_cons] at hF
      omega

/-- `expand_item` returns the closure -/
theorem expandItem_spec (wf : g.WF) {fs : SymSets} (hfs : FsOk g kind fs) {it0 : Item} (h0 : ItemOk g kind it0) (fuel : Nat) :
    Out (closureFuel g kind ≤ fuel) (SafeFor g kind)
      (fun s => SSorted s ∧ (∀ it ∈ s, ItemOk g kind it) ∧ ∀ it, it ∈ s ↔ Closure g it0 it) (expandItem g fs fuel it0) := by
  have hinv : ClosInv g kind it0 [it0] [it0] := by
    refine ⟨by simp [SSorted], by simp, fun it h => ?_, fun it h => h, fun it h hn => (hn h).elim⟩
    simp at h; subst h; exact ⟨.self, h0⟩
  refine (expandLoop_spec wf hfs fuel [it0] [it0] hinv).weaken ?_ id
  intro h
  have := universe_bound hinv.sorted (fun it h => (hinv.sound it h).2)
  simp only [List.length_cons, List.length_nil] at *
  omega

theorem expandLoop_mono {fs : SymSets} {f1 f2 : Nat} {set stack s : List Item} (h : expandLoop g fs f1 set stack = .ok s) (hle : f1 ≤ f2) :
    expandLoop g fs f2 set stack = .ok s := by
  induction f1 generalizing f2 set stack with
  | zero =>
    cases stack with
    | nil => cases f2 <;> simpa [expandLoop] using h
    | cons _ _ => simp [expandLoop] at h
  | succ f1 ih =>
    cases stack with
    | nil => cases f2 <;> simpa [expandLoop] using h
    | cons top stack =>
      obtain ⟨f2, rfl⟩ : ∃ k, f2 = k + 1 := ⟨f2 - 1, by omega⟩
      simp only [expandLoop] at h ⊢
      obtain ⟨st, h1, h2⟩ := res_bind_ok.mp h
      exact res_bind_ok.mpr ⟨st, h1, ih h2 (by omega)⟩

theorem expandItem_mono {fs : SymSets} {f1 f2 : Nat} {it : Item} {s : List Item} (h : expandItem g fs f1 it = .ok s) (hle : f1 ≤ f2) :
    expandItem g fs f2 it = .ok s := expandLoop_mono h hle

end Verif
