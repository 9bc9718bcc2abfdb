import Verif.Proofs.LRConflict
import Verif.Proofs.LRLink

/-!
# A checked certificate for the absence of LR(1) conflicts

Running the table generator inside the kernel on a grammar of realistic size is too expensive. Instead, a list of states, in which an item carries the set of its
lookaheads as a bit mask, is checked for containing the LR(1) states of the grammar and being free of conflicts.
-/

set_option autoImplicit false

namespace Verif

/-- bit of a terminal -/
def bitOf : Sym → Nat
  | .t a => a + 1
  | _ => 0

/-- masks and nullability of non-terminals -/
abbrev FirstCert := List (Nat × Bool)

def FirstCert.get (fc : FirstCert) (A : Nat) : Nat × Bool := fc.getD A (0, false)

/-- what the symbols followed by something that starts with the terminals in `k` can start with -/
def seqMask (fc : FirstCert) : List Sym → Nat → Nat
  | [], k => k
  | .eps :: ss, k => seqMask fc ss k
  | .nt A :: ss, k => if (fc.get A).2 then (fc.get A).1 ||| seqMask fc ss k else (fc.get A).1
  | s :: _, _ => 2 ^ bitOf s

def seqNullable (fc : FirstCert) : List Sym → Bool
  | [] => true
  | .eps :: ss => seqNullable fc ss
  | .nt A :: ss => (fc.get A).2 && seqNullable fc ss
  | _ :: _ => false

def maskSub (m m' : Nat) : Bool := m ||| m' == m'

/-- the masks are closed under the rules -/
def checkFirst (g : Grammar) (fc : FirstCert) : Bool :=
  g.rules.all fun r => maskSub (seqMask fc r.rhs 0) (fc.get r.lhs).1 && (!seqNullable fc r.rhs || (fc.get r.lhs).2)

theorem maskSub_iff {m m' : Nat} (h : maskSub m m' = true) {i : Nat} (hi : m.testBit i = true) : m'.testBit i = true := by
  unfold maskSub at h
  have : m ||| m' = m' := by simpa using h
  rw [← this, Nat.testBit_or, hi]
  rfl

theorem seqMask_append (fc : FirstCert) (xs ys : List Sym) (k : Nat) : seqMask fc (xs ++ ys) k = seqMask fc xs (seqMask fc ys k) := by
  induction xs with
  | nil => rfl
  | cons x xs ih => cases x <;> simp only [List.cons_append, seqMask, ih]

theorem seqMask_strip (fc : FirstCert) (xs : List Sym) (k : Nat) : seqMask fc (strip xs) k = seqMask fc xs k := by
  induction xs with
  | nil => rfl
  | cons x xs ih =>
    unfold strip at ih ⊢
    have ih' : seqMask fc (List.filter (fun s => !decide (s = Sym.eps)) xs) k = seqMask fc xs k := by simpa using ih
    cases x <;> simp [seqMask, ih']

theorem seqMask_mono (fc : FirstCert) (xs : List Sym) {k k' i : Nat} (hk : k.testBit i = true → k'.testBit i = true) (h : (seqMask fc xs k).testBit i = true) :
    (seqMask fc xs k').testBit i = true := by
  induction xs with
  | nil => exact hk h
  | cons x xs ih =>
    cases x with
    | eps => exact ih h
    | nt A =>
      simp only [seqMask] at h ⊢
      split at h
      · rename_i hn
        rw [if_pos hn]
        rw [Nat.testBit_or, Bool.or_eq_true] at h ⊢
        exact h.imp id ih
      · rename_i hn
        rw [if_neg hn]
        exact h
    | t a => exact h
    | eof => exact h

theorem seqMask_split (fc : FirstCert) (xs : List Sym) {k i : Nat} (h : (seqMask fc xs k).testBit i = true) :
    (seqMask fc xs 0).testBit i = true ∨ (seqNullable fc xs = true ∧ k.testBit i = true) := by
  induction xs with
  | nil => exact .inr ⟨rfl, h⟩
  | cons x xs ih =>
    cases x with
    | eps => exact ih h
    | nt A =>
      simp only [seqMask, seqNullable] at h ⊢
      split at h
      · rename_i hn
        rw [if_pos hn]
        rw [Nat.testBit_or, Bool.or_eq_true] at h ⊢
        rcases h with h | h
        · exact .inl (.inl h)
        · rcases ih h with h | h
          · exact .inl (.inr h)
          · exact .inr ⟨by simp [hn, h.1], h.2⟩
      · rename_i hn
        rw [if_neg hn]
        exact .inl h
    | t a => exact .inl h
    | eof => exact .inl h

theorem rewrites_mask {g : Grammar} {fc : FirstCert} (hc : checkFirst g fc = true) {xs ys : List Sym} (h : Rewrites g.rules xs ys) {k i : Nat}
    (hi : (seqMask fc ys k).testBit i = true) : (seqMask fc xs k).testBit i = true := by
  induction h with
  | refl => exact hi
  | @step α β r _ hr ih =>
    apply ih
    rw [List.append_assoc, seqMask_append, seqMask_append, seqMask_strip] at hi
    rw [seqMask_append]
    refine seqMask_mono fc α ?_ hi
    intro hb
    have hr' := List.all_eq_true.mp hc r hr
    rw [Bool.and_eq_true, Bool.or_eq_true] at hr'
    simp only [seqMask]
    rcases seqMask_split fc r.rhs hb with hb | ⟨hn, hb⟩
    · have := maskSub_iff hr'.1 hb
      split
      · rw [Nat.testBit_or, this]; rfl
      · exact this
    · rcases hr'.2 with h0 | h0
      · rw [hn] at h0; cases h0
      · rw [if_pos h0, Nat.testBit_or, hb]
        simp

theorem first_mask {g : Grammar} {fc : FirstCert} (hc : checkFirst g fc = true) {ss : List Sym} {a b : Sym} {m : Nat} (ha : m.testBit (bitOf a) = true)
    (hta : a.isTerm) (hb : b.isTerm) (h : FirstOf g (ss ++ [a]) b) : (seqMask fc ss m).testBit (bitOf b) = true := by
  have key : ∀ x : Sym, x.isTerm → ∀ l k, seqMask fc (x :: l) k = 2 ^ bitOf x := by
    intro x hx l k
    cases x with
    | eps => cases hx
    | nt A => cases hx
    | t a => rfl
    | eof => rfl
  obtain ⟨β, hβ⟩ := h
  have := rewrites_mask hc hβ (k := 0) (i := bitOf b) (by rw [key b hb]; exact Nat.testBit_two_pow_self)
  rw [seqMask_strip, seqMask_append, key a hta] at this
  refine seqMask_mono fc ss ?_ this
  intro h2
  rw [Nat.testBit_two_pow] at h2
  rw [← of_decide_eq_true h2]
  exact ha

/-- an item with a set of lookaheads -/
abbrev CItem := Option Nat × Nat × Nat

def CItem.after (g : Grammar) (e : CItem) : Option Sym := (ruleRhs g e.1)[e.2.1]?

/-- the items of a state, and where its transitions lead -/
structure CState where
  items : List CItem
  edges : List (Sym × Nat)

/-- the item with all the lookaheads is there -/
def CState.has (t : CState) (r : Option Nat) (d m : Nat) : Bool := t.items.any fun e => e.1 == r && e.2.1 == d && maskSub m e.2.2

def CState.covers (t : CState) (it : Item) : Prop :=
  ∃ e ∈ t.items, e.1 = it.rule ∧ e.2.1 = it.dot ∧ ∃ a : Sym, it.la = some a ∧ a.isTerm ∧ e.2.2.testBit (bitOf a) = true

theorem CState.covers_has {t : CState} {r : Option Nat} {d m : Nat} (h : t.has r d m = true) {a : Sym} (ht : a.isTerm) (ha : m.testBit (bitOf a) = true) :
    t.covers ⟨r, d, some a⟩ := by
  obtain ⟨e, he, hp⟩ := List.any_eq_true.mp h
  simp only [Bool.and_eq_true, beq_iff_eq] at hp
  exact ⟨e, he, hp.1.1, hp.1.2, a, rfl, ht, maskSub_iff hp.2 ha⟩

/-- closure and transitions of an item -/
def checkItem (g : Grammar) (fc : FirstCert) (cert : List CState) (t : CState) (e : CItem) : Bool :=
  match e.after g with
  | none => true
  | some X =>
    (match X with
      | .nt A => g.rules.zipIdx.all fun r => !(r.1.lhs == A) || t.has (some r.2) (leadingEps r.1.rhs) (seqMask fc ((ruleRhs g e.1).drop (e.2.1 + 1)) e.2.2)
      | _ => true) &&
    (e.1.isNone || t.edges.any fun x => x.1 == X && (match cert[x.2]? with | some t' => t'.has e.1 (e.2.1 + 1) e.2.2 | none => false))

/-- completed items have disjoint lookaheads, which are not shifted; a symbol labels one edge only -/
def checkConflicts (g : Grammar) (t : CState) : Bool :=
  let done := t.items.filter fun e => (e.after g).isNone
  decide (done.Pairwise fun e e' => e.2.2 &&& e'.2.2 = 0) &&
  (done.all fun e => t.edges.all fun x => (match x.1 with | .nt _ => true | _ => !e.2.2.testBit (bitOf x.1))) &&
  decide (t.edges.Pairwise fun x y => x.1 ≠ y.1)

def checkCert (g : Grammar) (fc : FirstCert) (cert : List CState) : Bool :=
  checkFirst g fc &&
  (match cert[0]? with | some t => t.has none 0 1 | none => false) &&
  cert.all fun t => (t.items.all fun e => checkItem g fc cert t e) && checkConflicts g t

section
variable {g : Grammar} {fc : FirstCert} {cert : List CState}

theorem covers_step (hf : checkFirst g fc = true) {t : CState} (ht : ∀ e ∈ t.items, checkItem g fc cert t e = true) {a b : Item} (ha : t.covers a) (h : ClosureStep g a b) :
    t.covers b := by
  obtain ⟨A, i, r, x, h1, h2, h3, h4, rfl⟩ := h
  obtain ⟨e, he, e1, e2, y, hy, hty, hm⟩ := ha
  unfold ExpandsWith at h4
  rw [hy] at h4
  obtain ⟨c, rfl, hc, hfst⟩ := h4
  have hck := ht e he
  have hafter : e.after g = some (.nt A) := by
    unfold CItem.after
    rw [e1, e2]
    exact h1
  unfold checkItem at hck
  rw [hafter] at hck
  simp only [Bool.and_eq_true] at hck
  have := List.all_eq_true.mp hck.1 (r, i) (List.mem_zipIdx_iff_getElem?.mpr h2)
  simp only [h3, beq_self_eq_true, Bool.not_true, Bool.false_or] at this
  rw [e1, e2] at this
  exact CState.covers_has this hc (first_mask hf hm hty hc hfst)

theorem covers_closure (hf : checkFirst g fc = true) {t : CState} (ht : ∀ e ∈ t.items, checkItem g fc cert t e = true) {a b : Item} (ha : t.covers a) (h : Closure g a b) :
    t.covers b := by
  induction h with
  | self => exact ha
  | step _ hs ih => exact covers_step hf ht ih hs

/-- the transition of a covered item -/
theorem covers_edge {t : CState} (ht : ∀ e ∈ t.items, checkItem g fc cert t e = true) {k : Item} (hk : t.covers k) {X : Sym} (ha : k.after g = some X) (hr : k.rule ≠ none) :
    ∃ p t', (X, p) ∈ t.edges ∧ cert[p]? = some t' ∧ t'.covers { k with dot := k.dot + 1 } := by
  obtain ⟨e, he, e1, e2, y, hy, hty, hm⟩ := hk
  have hck := ht e he
  have hafter : e.after g = some X := by
    unfold CItem.after
    rw [e1, e2]
    exact ha
  unfold checkItem at hck
  rw [hafter] at hck
  rw [Bool.and_eq_true, Bool.or_eq_true] at hck
  rcases hck.2 with h | h
  · rw [e1] at h
    cases hkr : k.rule with
    | none => exact absurd hkr hr
    | some i => rw [hkr] at h; cases h
  · obtain ⟨x, hx, hp⟩ := List.any_eq_true.mp h
    rw [Bool.and_eq_true, beq_iff_eq] at hp
    obtain ⟨hp1, hp2⟩ := hp
    split at hp2
    · rename_i t' ht'
      refine ⟨x.2, t', by rw [← hp1]; exact hx, ht', ?_⟩
      have := CState.covers_has hp2 hty hm
      rw [e1, e2, ← hy] at this
      exact this
    · cases hp2

theorem lr1_covered (hc : checkCert g fc cert = true) {gr : LRGraph} (h : LoopInv g .lr1 gr []) {q : Nat} (hr : EReach gr.edges 0 q) :
    ∃ (s : List Item) (t : CState), gr.sets[q]? = some s ∧ t ∈ cert ∧ ∀ it ∈ s, t.covers it := by
  unfold checkCert at hc
  rw [Bool.and_eq_true, Bool.and_eq_true] at hc
  obtain ⟨⟨hf, h0⟩, hall⟩ := hc
  have hitems : ∀ t ∈ cert, ∀ e ∈ t.items, checkItem g fc cert t e = true := by
    intro t ht e he
    have := List.all_eq_true.mp hall t ht
    rw [Bool.and_eq_true] at this
    exact List.all_eq_true.mp this.1 e he
  have hconf : ∀ t ∈ cert, checkConflicts g t = true := by
    intro t ht
    have := List.all_eq_true.mp hall t ht
    rw [Bool.and_eq_true] at this
    exact this.2
  induction hr with
  | refl =>
    obtain ⟨s, hs, hcl⟩ := h.base.start
    split at h0
    · rename_i t ht
      refine ⟨s, t, hs, List.mem_of_getElem? ht, fun it hit => ?_⟩
      have hstart : t.covers (entryItem .lr1) := CState.covers_has (a := .eof) h0 trivial (by rfl)
      exact covers_closure hf (hitems t (List.mem_of_getElem? ht)) hstart ((hcl it).mp hit)
    · cases h0
  | @step q q' X _ he ih =>
    obtain ⟨s, t, hs, ht, hsub⟩ := ih
    obtain ⟨s0, s1, a1, a2, _, a3⟩ := h.base.edge _ _ _ he
    rw [hs] at a1; simp at a1; subst a1
    obtain ⟨it, hit⟩ := List.exists_mem_of_ne_nil _ (h.base.nonempty _ _ a2)
    obtain ⟨k, k1, k2, k3, _⟩ := (a3 rfl it).mp hit
    obtain ⟨p, t', b1, b2, _⟩ := covers_edge (hitems t ht) (hsub k k1) k2 k3
    refine ⟨s1, t', a2, List.mem_of_getElem? b2, fun it hit => ?_⟩
    obtain ⟨k, k1, k2, k3, k4⟩ := (a3 rfl it).mp hit
    obtain ⟨p', t'', c1, c2, c3⟩ := covers_edge (hitems t ht) (hsub k k1) k2 k3
    have : p' = p := by
      have hcf := hconf t ht
      unfold checkConflicts at hcf
      rw [Bool.and_eq_true] at hcf
      have hp := of_decide_eq_true hcf.2
      by_cases hpp : p' = p
      · exact hpp
      · have : ∀ l : List (Sym × Nat), l.Pairwise (fun x y => x.1 ≠ y.1) → (X, p) ∈ l → (X, p') ∈ l → p' = p := by
          intro l hl
          induction hl with
          | nil => intro h; cases h
          | cons hx _ ih =>
            intro h1 h2
            rcases List.mem_cons.mp h1 with g1 | g1 <;> rcases List.mem_cons.mp h2 with g2 | g2
            · rw [← g1] at g2
              exact (Prod.mk.inj g2).2
            · exact absurd (by rw [← g1]) (hx _ g2)
            · exact absurd (by rw [← g2]) (hx _ g1)
            · exact ih g1 g2
        exact this _ hp b1 c1
    subst this
    rw [b2] at c2
    cases c2
    exact covers_closure hf (hitems t' (List.mem_of_getElem? b2)) c3 k4

theorem noConf_of_cert (hc : checkCert g fc cert = true) {gr : LRGraph} (h : LoopInv g .lr1 gr []) : NoConf g gr := by
  have hcov := fun q (hq : q < gr.sets.length) => lr1_covered hc h (h.reached q hq)
  unfold checkCert at hc
  rw [Bool.and_eq_true, Bool.and_eq_true] at hc
  obtain ⟨⟨hf, -⟩, hall⟩ := hc
  have hconf : ∀ t ∈ cert, checkConflicts g t = true := by
    intro t ht
    have := List.all_eq_true.mp hall t ht
    rw [Bool.and_eq_true] at this
    exact this.2
  have hitems : ∀ t ∈ cert, ∀ e ∈ t.items, checkItem g fc cert t e = true := by
    intro t ht e he
    have := List.all_eq_true.mp hall t ht
    rw [Bool.and_eq_true] at this
    exact List.all_eq_true.mp this.1 e he
  have done : ∀ {t : CState} {it : Item} {e : CItem}, e ∈ t.items → e.1 = it.rule → e.2.1 = it.dot → it.after g = none →
      e ∈ t.items.filter fun e => (e.after g).isNone := by
    intro t it e he e1 e2 ha
    refine List.mem_filter.mpr ⟨he, ?_⟩
    unfold CItem.after
    rw [e1, e2]
    unfold Item.after at ha
    rw [ha]
    rfl
  refine ⟨fun q s hs it hit it' hit' ha ha' hla => ?_, fun q s hs it hit ha X q' he => ?_⟩
  · obtain ⟨s', t, hs', ht, hsub⟩ := hcov q (getElem?_lt hs)
    rw [hs] at hs'; simp at hs'; subst hs'
    obtain ⟨e, he, e1, e2, a, hla1, hta, hm⟩ := hsub it hit
    obtain ⟨e', he', e1', e2', a', hla1', hta', hm'⟩ := hsub it' hit'
    have hcf := hconf t ht
    unfold checkConflicts at hcf
    rw [Bool.and_eq_true, Bool.and_eq_true] at hcf
    have hp := of_decide_eq_true hcf.1.1
    have haa : a' = a := by
      rw [hla1, hla1'] at hla
      exact (Option.some.inj hla).symm
    subst haa
    have key : ∀ l : List CItem, l.Pairwise (fun e e' => e.2.2 &&& e'.2.2 = 0) → e ∈ l → e' ∈ l → e = e' := by
      have disj : ∀ {x y : CItem}, x.2.2 &&& y.2.2 = 0 → x.2.2.testBit (bitOf a') = true → y.2.2.testBit (bitOf a') = true → False := by
        intro x y h0 hx hy
        have : (x.2.2 &&& y.2.2).testBit (bitOf a') = true := by rw [Nat.testBit_and, hx, hy]; rfl
        rw [h0, Nat.zero_testBit] at this
        cases this
      intro l hl
      induction hl with
      | nil => intro h; cases h
      | cons hx _ ih =>
        intro h1 h2
        rcases List.mem_cons.mp h1 with g1 | g1 <;> rcases List.mem_cons.mp h2 with g2 | g2
        · rw [g1, g2]
        · exact absurd hm' (fun h => disj (hx _ g2) (g1 ▸ hm) h)
        · exact absurd hm (fun h => disj (hx _ g1) (g2 ▸ hm') h)
        · exact ih g1 g2
    have hee := key _ hp (done he e1 e2 ha) (done he' e1' e2' ha')
    subst hee
    cases it
    cases it'
    simp only at e1 e2 e1' e2' hla
    subst e1 e2
    simp only [Item.mk.injEq]
    exact ⟨e1', e2', hla⟩
  · obtain ⟨s', t, hs', ht, hsub⟩ := hcov q (getElem?_lt hs)
    rw [hs] at hs'; simp at hs'; subst hs'
    obtain ⟨s0, s1, a1, a2, _, a3⟩ := h.base.edge _ _ _ he
    rw [hs] at a1; simp at a1; subst a1
    obtain ⟨it1, hit1⟩ := List.exists_mem_of_ne_nil _ (h.base.nonempty _ _ a2)
    obtain ⟨k, k1, k2, k3, _⟩ := (a3 rfl it1).mp hit1
    obtain ⟨p, t', b1, -, -⟩ := covers_edge (hitems t ht) (hsub k k1) k2 k3
    obtain ⟨e, hee, e1, e2, a, hla1, hta, hm⟩ := hsub it hit
    have hcf := hconf t ht
    unfold checkConflicts at hcf
    rw [Bool.and_eq_true, Bool.and_eq_true] at hcf
    have := List.all_eq_true.mp (List.all_eq_true.mp hcf.1.2 e (done hee e1 e2 ha)) _ b1
    refine ⟨a, hla1, ?_⟩
    rintro rfl
    cases a with
    | nt A => cases hta
    | eps => cases hta
    | t a => simp only [hm] at this; cases this
    | eof => simp only [hm] at this; cases this

/-- LR(1) generation reports no conflicts -/
theorem generate_of_cert (wf : g.WF) (hne : NoEmptyRhs g) (hs : ShortRhs g) (hel : EpsLeading g) (hc : checkCert g fc cert = true) (allow : Bool) :
    ∃ bound tb, ∀ fuel, bound ≤ fuel → generateTable g allow .lr1 fuel = .ok (.noConflicts tb) := by
  obtain ⟨r, h, _⟩ := (generateTable_out (kind := .lr1) wf hne allow (Nat.le_refl _)).total trivial ⟨hs, fun _ => hel⟩
  obtain ⟨gr, hv, ha⟩ := generateTable_inv wf hne h
  have := (findConflicts_nil hv.base).mpr (noConf_of_cert hc hv)
  cases r with
  | noConflicts tb => exact ⟨_, tb, fun fuel hf => generateTable_mono h hf⟩
  | allowedConflicts _ _ => exact absurd this ha.2.1
  | badConflicts _ => exact absurd this ha.2.1
end

end Verif
