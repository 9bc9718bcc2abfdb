import Verif.Spec.Layout
import Verif.Proofs.LayoutTable
import Verif.Proofs.Generate

/-! # Proofs: `generate` does not depend on hash order and addresses -/

set_option autoImplicit false

namespace Verif

variable {lay lay' : Layout} {g : Grammar}

/-- the computation does not run out of steps -/
def NoFuel {α : Type} (r : Res α) : Prop := r ≠ .error .fuel

theorem NoFuel.ok {α : Type} (a : α) : NoFuel (.ok a : Res α) := fun h => nomatch h

theorem NoFuel.panic {α : Type} : NoFuel (.error .panic : Res α) := fun h => nomatch h

theorem NoFuel.bind {α β : Type} {r : Res α} {f : α → Res β} (h : NoFuel r) (hf : ∀ a, NoFuel (f a)) : NoFuel (r >>= f) := by
  cases r with
  | error e => cases e with
    | panic => exact NoFuel.panic
    | fuel => exact (h rfl).elim
  | ok a => exact hf a

theorem NoFuel.mapM {α β : Type} {f : α → Res β} (h : ∀ a, NoFuel (f a)) : ∀ l : List α, NoFuel (l.mapM f) := by
  intro l
  induction l with
  | nil => simp only [List.mapM_nil]; exact NoFuel.ok _
  | cons a l ih =>
    rw [List.mapM_cons]
    exact (h a).bind fun b => ih.bind fun bs => NoFuel.ok _

theorem addU16_noFuel (n k : Nat) : NoFuel (addU16 n k) := by
  unfold addU16
  split
  · exact NoFuel.ok _
  · exact NoFuel.panic

theorem offset_noFuel (pos : SourcePos) : ∀ (text : List Char) (line col off : Nat), NoFuel (pos.offsetFrom line col off text) := by
  intro text
  induction text with
  | nil => intro line col off; exact NoFuel.ok _
  | cons c text ih =>
    intro line col off
    simp only [SourcePos.offsetFrom]
    split
    · exact NoFuel.ok _
    · split
      · exact (addU16_noFuel _ _).bind fun _ => ih _ _ _
      · exact (addU16_noFuel _ _).bind fun _ => ih _ _ _

theorem conflictReport_noFuel (file contents : List Char) (prods : List (Spanned ProdRule)) (g : Grammar) (c : Conflict) : NoFuel (conflictReport file contents prods g c) := by
  have htok : ∀ a, NoFuel (g.tokenName a) := by
    intro a
    unfold Grammar.tokenName
    split
    · exact NoFuel.ok _
    · exact NoFuel.panic
  have hname : ∀ s, NoFuel (g.symbolName s) := by
    intro s
    cases s with
    | t a => exact (htok a).bind fun _ => NoFuel.ok _
    | nt A =>
      simp only [Grammar.symbolName]
      split <;> exact NoFuel.ok _
    | eps => exact NoFuel.ok _
    | eof => exact NoFuel.ok _
  have hnames : ∀ ss, NoFuel (symbolNames g ss) := by
    intro ss
    unfold symbolNames
    exact (NoFuel.mapM hname ss).bind fun _ => NoFuel.ok _
  have htext : ∀ it, NoFuel (itemText g it) := by
    intro it
    unfold itemText
    refine (hnames _).bind fun _ => (hnames _).bind fun _ => ?_
    split
    · exact (hname _).bind fun _ => NoFuel.ok _
    · exact NoFuel.ok _
  have hsub : ∀ span : SourceSpan, NoFuel (span.substring contents) := by
    intro span
    unfold SourceSpan.substring
    refine (offset_noFuel _ _ _ _ _).bind fun a => ?_
    cases a with
    | none => exact NoFuel.ok _
    | some start =>
      refine (offset_noFuel _ _ _ _ _).bind fun b => ?_
      cases b with
      | none => exact NoFuel.ok _
      | some stop =>
        refine NoFuel.bind ?_ fun _ => NoFuel.ok _
        unfold byteSlice
        split
        · split
          · exact NoFuel.ok _
          · exact NoFuel.panic
        · exact NoFuel.panic
  have hloc : ∀ it, NoFuel (itemLocation file contents prods g it) := by
    intro it
    unfold itemLocation
    refine NoFuel.bind ?_ fun o => ?_
    · unfold itemOrigin
      split
      · exact NoFuel.ok _
      · split
        · exact NoFuel.ok _
        · exact NoFuel.panic
    · split
      · unfold Location.fromSpan
        refine (hsub _).bind fun a => ?_
        cases a with
        | none => exact NoFuel.panic
        | some t => exact NoFuel.ok _
      · exact NoFuel.panic
  cases c with
  | shiftReduce q it s =>
    simp only [conflictReport]
    refine NoFuel.bind ?_ fun _ => (hloc it).bind fun _ => (htext it).bind fun _ => NoFuel.ok _
    cases s with
    | t a => exact htok a
    | _ => exact hname _
  | reduceReduce q its =>
    simp only [conflictReport]
    exact (NoFuel.mapM (fun it => (htext it).bind fun _ => (hloc it).bind fun _ => NoFuel.ok _) its).bind fun _ => NoFuel.ok _

/-- reports for the same conflicts in another order -/
theorem mapM_perm {α β : Type} {f : α → Res β} (hf : ∀ a, NoFuel (f a)) {l l' : List α} (h : l.Perm l') :
    (l.mapM f = .error .panic ∧ l'.mapM f = .error .panic) ∨ ∃ rs rs', l.mapM f = .ok rs ∧ l'.mapM f = .ok rs' ∧ rs.Perm rs' := by
  by_cases hok : ∀ a ∈ l, ∃ b, f a = .ok b
  · right
    have tot : ∀ l : List α, (∀ a ∈ l, ∃ b, f a = .ok b) → ∃ rs, l.mapM f = .ok rs := by
      intro l
      induction l with
      | nil => intro _; exact ⟨[], rfl⟩
      | cons a l ih =>
        intro h
        obtain ⟨b, hb⟩ := h a (by simp)
        obtain ⟨rs, hrs⟩ := ih (fun x hx => h x (by simp [hx]))
        exact ⟨b :: rs, by rw [List.mapM_cons, hb, hrs]; rfl⟩
    -- map with a total function
    cases l with
    | nil =>
      have := h.nil_eq
      subst this
      exact ⟨[], [], rfl, rfl, List.Perm.refl _⟩
    | cons a0 l0 =>
      obtain ⟨b0, _⟩ := hok a0 (by simp)
      let f' : α → β := fun a => match f a with | .ok b => b | .error _ => b0
      have hmap : ∀ l : List α, (∀ a ∈ l, ∃ b, f a = .ok b) → l.mapM f = .ok (l.map f') := by
        intro l
        induction l with
        | nil => intro _; rfl
        | cons a l ih =>
          intro h
          obtain ⟨b, hb⟩ := h a (by simp)
          have e : f' a = b := by simp only [f', hb]
          rw [List.mapM_cons, hb, ih (fun x hx => h x (by simp [hx])), List.map_cons, e]
          rfl
      refine ⟨_, _, hmap _ hok, hmap _ (fun a ha => hok a (h.mem_iff.mpr ha)), h.map _⟩
  · left
    have err : ∀ l : List α, (¬ ∀ a ∈ l, ∃ b, f a = .ok b) → l.mapM f = .error .panic := by
      intro l
      induction l with
      | nil => intro h; simp at h
      | cons a l ih =>
        intro h
        rw [List.mapM_cons]
        cases ha : f a with
        | error e =>
          cases e with
          | panic => rfl
          | fuel => exact (hf a ha).elim
        | ok b =>
          rw [ih (fun hall => h (fun x hx => by
            rcases List.mem_cons.mp hx with rfl | hx
            · exact ⟨b, ha⟩
            · exact hall x hx))]
          rfl
    exact ⟨err l hok, err l' (fun hall => hok (fun a ha => hall a (h.mem_iff.mp ha)))⟩

theorem SameOutcome.refl (a : List Written × Ending) : SameOutcome a a := ⟨rfl, .inl rfl⟩

theorem laidLrArm_same (wf : g.WF) (hl : lay.Possible) (fuel : Nat) (lang : Language) (kind : LRKind) (genTable : Bool) (path contents : List Char) (rules : SpannedRules)
    (written : List Written) :
    SameOutcome (laidLrArm lay fuel lang kind genTable path contents rules g written) (lrArm fuel lang kind genTable path contents rules g written) := by
  have h := laidTable_rel wf hl.iter hl.visit false kind fuel
  unfold laidLrArm lrArm
  cases ha : generateTable g false kind fuel with
  | error e =>
    cases hb : laidTable lay g false kind fuel with
    | error e' => rw [ha, hb] at h; cases (show e = e' from h); exact SameOutcome.refl _
    | ok b => rw [ha, hb] at h; exact h.elim
  | ok a =>
    cases hb : laidTable lay g false kind fuel with
    | error e' => rw [ha, hb] at h; exact h.elim
    | ok b =>
      rw [ha, hb] at h
      obtain ⟨h1, h2⟩ := h
      cases a <;> cases b <;> try exact h1.elim
      · cases (show _ = _ from h1); exact SameOutcome.refl _
      · exact SameOutcome.refl _
      · rename_i cs cs'
        have hm : ∀ c, c ∈ cs' ↔ c ∈ cs := h1
        have hnd : cs'.Nodup := by
          refine List.Pairwise.imp ?_ (show ConflictSet lay cs' from h2.1)
          intro a b hab e
          subst e
          exact List.lt_irrefl _ hab
        have hp : cs'.Perm cs.dedup := (List.perm_ext_iff_of_nodup hnd (List.nodup_dedup cs)).mpr fun c => by rw [List.mem_dedup, hm]
        simp only
        rcases mapM_perm (conflictReport_noFuel path contents rules.prods g) hp with ⟨e1, e2⟩ | ⟨rs, rs', e1, e2, e3⟩
        · rw [e1, e2]; exact SameOutcome.refl _
        · rw [e1, e2]; exact ⟨rfl, .inr ⟨rs, rs', rfl, rfl, e3⟩⟩

theorem laidGlrArm_same (wf : g.WF) (hl : lay.Possible) (fuel : Nat) (lang : Language) (genTable : Bool) (written : List Written) :
    laidGlrArm lay fuel lang genTable g written = glrArm fuel lang genTable g written := by
  have h := laidTable_rel wf hl.iter hl.visit true .lalr fuel
  unfold laidGlrArm glrArm
  cases ha : generateTable g true .lalr fuel with
  | error e =>
    cases hb : laidTable lay g true .lalr fuel with
    | error e' => rw [ha, hb] at h; cases (show e = e' from h); rfl
    | ok b => rw [ha, hb] at h; exact h.elim
  | ok a =>
    cases hb : laidTable lay g true .lalr fuel with
    | error e' => rw [ha, hb] at h; exact h.elim
    | ok b =>
      rw [ha, hb] at h
      obtain ⟨h1, h2⟩ := h
      cases a <;> cases b <;> try exact h1.elim
      · cases (show _ = _ from h1); rfl
      · cases (show _ = _ from h1.1); rfl
      · rfl

/-- two runs give the same table or the same conflicts in the same order -/
theorem laidTable_same (wf : g.WF) (hl : lay.Possible) (hl' : lay'.Possible) (allow : Bool) (kind : LRKind) (fuel : Nat) :
    laidTable lay g allow kind fuel = laidTable lay' g allow kind fuel := by
  have h := laidTable_rel wf hl.iter hl.visit allow kind fuel
  have h' := laidTable_rel wf hl'.iter hl'.visit allow kind fuel
  cases ha : generateTable g allow kind fuel with
  | error e =>
    cases hb : laidTable lay g allow kind fuel with
    | ok b => rw [ha, hb] at h; exact h.elim
    | error e1 =>
      cases hc : laidTable lay' g allow kind fuel with
      | ok b => rw [ha, hc] at h'; exact h'.elim
      | error e2 =>
        rw [ha, hb] at h
        rw [ha, hc] at h'
        rw [← show e = e1 from h, ← show e = e2 from h']
  | ok a =>
    cases hb : laidTable lay g allow kind fuel with
    | error e1 => rw [ha, hb] at h; exact h.elim
    | ok b =>
      cases hc : laidTable lay' g allow kind fuel with
      | error e2 => rw [ha, hc] at h'; exact h'.elim
      | ok c =>
        rw [ha, hb] at h
        rw [ha, hc] at h'
        obtain ⟨h1, h2⟩ := h
        obtain ⟨h1', h2'⟩ := h'
        cases a <;> cases b <;> (try exact h1.elim) <;> cases c <;> try exact h1'.elim
        · rw [← show _ = _ from h1, ← show _ = _ from h1']
        · rw [← h1.1, ← h1'.1, h2.1.same h2'.1 h2.2 (fun c => (h1.2 c).trans (h1'.2 c).symm)]
        · rw [h2.1.same h2'.1 h2.2 (fun c => (h1 c).trans (h1' c).symm)]

end Verif
