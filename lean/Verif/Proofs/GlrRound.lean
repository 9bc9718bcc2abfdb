import Verif.Proofs.GlrLin

/-!
# What the reductions of the linear GLR driver compute

One round replaces every stack by its successors. The driver finds exactly the stacks reachable by reductions; a panic means two finished
stacks.
-/

set_option autoImplicit false

namespace Verif

variable {T : Type} {m : GlrMachine} {tk : Tok}

/-- actions of a configuration -/
def actsOf (m : GlrMachine) (tk : Tok) : GConf T → List LRAction
  | .live (.state q :: _) _ => match m.nextActions q tk with | .acts l => l | _ => []
  | _ => []

/-- configurations an action finishes -/
def accOf (m : GlrMachine) : GConf T → LRAction → List (GConf T)
  | .live stk ev, .shift => [.live stk ev]
  | .live stk ev, .reduce i => match linReduce m i stk ev with | some (.root ev') => [.root ev'] | _ => []
  | .root _, _ => []

/-- configurations an action leads to -/
def newOf (m : GlrMachine) : GConf T → LRAction → List (GConf T)
  | .live stk ev, .reduce i => match linReduce m i stk ev with | some (.live stk' ev') => [.live stk' ev'] | _ => []
  | _, _ => []

/-- a configuration without underflow: its actions are known and its reductions are defined -/
structure GoodConf (m : GlrMachine) (tk : Tok) (c : GConf T) : Prop where
  live : ∃ q rest ev, c = .live (.state q :: rest) ev ∧ m.nextActions q tk ≠ .panic ∧ m.nextActions q tk ≠ .acts [] ∧
    ∀ l i, m.nextActions q tk = .acts l → .reduce i ∈ l → ∃ c', linReduce m i (.state q :: rest) ev = some c'

/-- number of finished configurations -/
def roots (l : List (GConf T)) : Nat := l.countP GConf.isRoot

/-- is there one already -/
def cnt (p : Bool) : Nat := if p then 1 else 0

/-- adding what an action gives -/
def accum (st : LinSt T) (x : List (GConf T) × List (GConf T)) : Res (LinSt T) :=
  if 2 ≤ cnt st.popped + roots x.1 then .error .panic
  else .ok ⟨st.popped || x.1.any GConf.isRoot, st.accepted ++ x.1, st.newTo ++ x.2⟩

theorem roots_append (a b : List (GConf T)) : roots (a ++ b) = roots a + roots b := by simp [roots]

theorem roots_pos {a : List (GConf T)} : 0 < roots a ↔ a.any GConf.isRoot = true := by
  simp [roots, List.countP_pos_iff]

theorem cnt_or (p : Bool) (a : List (GConf T)) (h : cnt p + roots a < 2) : cnt (p || a.any GConf.isRoot) = cnt p + roots a := by
  by_cases h0 : 0 < roots a
  · have := roots_pos.mp h0
    rw [this]
    simp only [Bool.or_true, cnt, if_true]
    unfold cnt at h
    split at h
    · omega
    · simp_all; omega
  · have : a.any GConf.isRoot = false := by
      cases e : a.any GConf.isRoot with
      | false => rfl
      | true => exact absurd (roots_pos.mpr e) h0
    rw [this, Bool.or_false]
    omega

/-- adding what many actions give -/
theorem accum_all : ∀ (xs : List (List (GConf T) × List (GConf T))) (st : LinSt T), cnt st.popped ≤ 1 →
    xs.foldlM accum st = if 2 ≤ cnt st.popped + roots (xs.flatMap (·.1)) then .error .panic
      else .ok ⟨st.popped || (xs.flatMap (·.1)).any GConf.isRoot, st.accepted ++ xs.flatMap (·.1), st.newTo ++ xs.flatMap (·.2)⟩ := by
  intro xs
  induction xs with
  | nil =>
    intro st h
    simp only [List.foldlM_nil, List.flatMap_nil, roots, List.countP_nil, List.any_nil, Bool.or_false, List.append_nil]
    rw [if_neg (by omega)]
    rfl
  | cons x xs ih =>
    intro st h
    simp only [List.foldlM_cons, List.flatMap_cons]
    by_cases h2 : 2 ≤ cnt st.popped + roots x.1
    · rw [if_pos (by rw [roots_append]; omega)]
      simp only [accum, if_pos h2]
      rfl
    · have e : accum st x = .ok ⟨st.popped || x.1.any GConf.isRoot, st.accepted ++ x.1, st.newTo ++ x.2⟩ := by simp only [accum, if_neg h2]
      rw [e]
      have hc := cnt_or st.popped x.1 (by omega)
      have := ih ⟨st.popped || x.1.any GConf.isRoot, st.accepted ++ x.1, st.newTo ++ x.2⟩ (by simp only; omega)
      simp only [hc] at this
      show xs.foldlM accum _ = _
      rw [this, roots_append]
      simp only [List.any_append, Bool.or_assoc, List.append_assoc, Nat.add_assoc]

theorem linAction_accum {c : GConf T} (hg : GoodConf m tk c) {stk : List StackSym} {ev : List (LREvent T)} (hc : c = .live stk ev) (st : LinSt T) {a : LRAction}
    (ha : a ∈ actsOf m tk c) : linAction m stk ev st a = accum st (accOf m c a, newOf m c a) := by
  obtain ⟨q, rest, ev', h1, h2, _, h3⟩ := hg.live
  rw [hc] at h1
  simp only [GConf.live.injEq] at h1
  obtain ⟨rfl, rfl⟩ := h1
  subst hc
  cases a with
  | shift =>
    have : cnt st.popped ≤ 1 := by unfold cnt; split <;> omega
    simp only [linAction, accum, accOf, newOf, roots, List.countP_cons, List.countP_nil, GConf.isRoot, List.any_cons, List.any_nil]
    rw [if_neg (by simp; omega)]
    simp
  | reduce i =>
    unfold actsOf at ha
    cases hn : m.nextActions q tk with
    | panic => simp [hn] at ha
    | unexpected _ => simp [hn] at ha
    | acts l =>
      simp only [hn] at ha
      obtain ⟨c', hc'⟩ := h3 l i hn ha
      simp only [linAction, accOf, newOf, hc']
      cases c' with
      | root ev' =>
        simp only [accum, roots, List.countP_cons, List.countP_nil, GConf.isRoot, List.any_cons, List.any_nil]
        cases hp : st.popped with
        | true => simp [cnt]
        | false => simp [cnt]
      | live stk' ev' =>
        have : cnt st.popped ≤ 1 := by unfold cnt; split <;> omega
        have e : accum st ([], [GConf.live stk' ev']) = .ok ⟨st.popped || false, st.accepted ++ [], st.newTo ++ [.live stk' ev']⟩ := by
          unfold accum
          rw [if_neg (by simp only [roots, List.countP_nil]; omega)]
          rfl
        rw [e]
        simp

/-- contributions of a configuration -/
def contribs (m : GlrMachine) (tk : Tok) (c : GConf T) : List (List (GConf T) × List (GConf T)) := (actsOf m tk c).map (fun a => (accOf m c a, newOf m c a))

/-- its error, if it has no actions -/
def errOf (m : GlrMachine) (tk : Tok) : GConf T → List (List (Option Nat))
  | .live (.state q :: _) _ => match m.nextActions q tk with | .unexpected e => [e] | _ => []
  | _ => []

theorem foldlM_congr {α β : Type} {f g : β → α → Res β} : ∀ (l : List α) (b : β), (∀ b, ∀ a ∈ l, f b a = g b a) → l.foldlM f b = l.foldlM g b := by
  intro l
  induction l with
  | nil => intro b _; rfl
  | cons a l ih =>
    intro b h
    simp only [List.foldlM_cons]
    rw [h b a (by simp)]
    congr 1
    funext b'
    exact ih b' (fun b x hx => h b x (by simp [hx]))

theorem foldlM_map' {α β γ : Type} {f : β → γ → Res β} (h : α → γ) : ∀ (l : List α) (b : β), (l.map h).foldlM f b = l.foldlM (fun b a => f b (h a)) b := by
  intro l
  induction l with
  | nil => intro b; rfl
  | cons a l ih =>
    intro b
    simp only [List.map_cons, List.foldlM_cons]
    congr 1
    funext b'
    exact ih b'

theorem linStack_accum {c : GConf T} (hg : GoodConf m tk c) (st : LinSt T) (errs : List (List (Option Nat))) :
    linStack m tk (st, errs) c = ((contribs m tk c).foldlM accum st).bind (fun st' => .ok (st', errs ++ errOf m tk c)) := by
  obtain ⟨q, rest, ev, h1, h2, h2', h3⟩ := id hg.live
  have hact : actsOf m tk c = match m.nextActions q tk with | .acts l => l | _ => [] := by rw [h1]; rfl
  have herr : errOf m tk c = match m.nextActions q tk with | .unexpected e => [e] | _ => [] := by rw [h1]; rfl
  have hfold : (contribs m tk c).foldlM accum st = (actsOf m tk c).foldlM (linAction m (.state q :: rest) ev) st := by
    unfold contribs
    rw [foldlM_map']
    refine foldlM_congr _ _ (fun b a ha => ?_)
    exact (linAction_accum hg h1 b ha).symm
  rw [hfold, hact, herr]
  rw [h1]
  simp only [linStack]
  cases hn : m.nextActions q tk with
  | panic => exact absurd hn h2
  | unexpected e => rfl
  | acts l => simp only [List.append_nil]; rfl

theorem linStacks_accum : ∀ (cs : List (GConf T)), (∀ c ∈ cs, GoodConf m tk c) → ∀ (st : LinSt T) (errs : List (List (Option Nat))),
    cs.foldlM (linStack m tk) (st, errs) = ((cs.flatMap (contribs m tk)).foldlM accum st).bind (fun st' => .ok (st', errs ++ cs.flatMap (errOf m tk))) := by
  intro cs
  induction cs with
  | nil => intro _ st errs; simp [pure, Except.pure, Except.bind]
  | cons c cs ih =>
    intro hg st errs
    simp only [List.foldlM_cons, List.flatMap_cons, List.foldlM_append]
    rw [linStack_accum (hg c (by simp))]
    cases h : (contribs m tk c).foldlM accum st with
    | error e => rfl
    | ok st' =>
      show cs.foldlM (linStack m tk) (st', errs ++ errOf m tk c) = _
      rw [ih (fun c hc => hg c (by simp [hc]))]
      simp only [List.append_assoc]
      rfl

/-- finished configurations of one round -/
def accs (m : GlrMachine) (tk : Tok) (cs : List (GConf T)) : List (GConf T) := cs.flatMap (fun c => (actsOf m tk c).flatMap (accOf m c))

/-- configurations for the next round -/
def news (m : GlrMachine) (tk : Tok) (cs : List (GConf T)) : List (GConf T) := cs.flatMap (fun c => (actsOf m tk c).flatMap (newOf m c))

theorem contribs_accs (cs : List (GConf T)) : (cs.flatMap (contribs m tk)).flatMap (·.1) = accs m tk cs := by
  simp only [List.flatMap_assoc, accs, contribs, List.flatMap_map]

theorem contribs_news (cs : List (GConf T)) : (cs.flatMap (contribs m tk)).flatMap (·.2) = news m tk cs := by
  simp only [List.flatMap_assoc, news, contribs, List.flatMap_map]

theorem errs_len (cs : List (GConf T)) (hg : ∀ c ∈ cs, GoodConf m tk c) : (cs.flatMap (errOf m tk)).length = cs.length ↔ ∀ c ∈ cs, actsOf m tk c = [] := by
  have hone : ∀ c ∈ cs, (errOf m tk c).length ≤ 1 ∧ ((errOf m tk c).length = 1 ↔ actsOf m tk c = []) := by
    intro c hc
    obtain ⟨q, rest, ev, rfl, h2, h2', _⟩ := (hg c hc).live
    simp only [errOf, actsOf]
    cases hn : m.nextActions q tk with
    | panic => exact absurd hn h2
    | unexpected e => simp
    | acts l =>
      have : l ≠ [] := by rintro rfl; exact h2' hn
      simp [this]
  clear hg
  induction cs with
  | nil => simp
  | cons c cs ih =>
    obtain ⟨h1, h2⟩ := hone c (by simp)
    have h3 := ih (fun c hc => hone c (by simp [hc]))
    have hle : (cs.flatMap (errOf m tk)).length ≤ cs.length := by
      clear ih h3
      induction cs with
      | nil => simp
      | cons c' cs ih' =>
        have := (hone c' (by simp)).1
        have := ih' (fun c hc => hone c (by simp at hc ⊢; tauto))
        simp only [List.flatMap_cons, List.length_append, List.length_cons]; omega
    simp only [List.flatMap_cons, List.length_append, List.length_cons, List.forall_mem_cons, ← h2, ← h3]
    omega

/-- a round -/
theorem linReduces_round (fuel : Nat) (p : Bool) (acc cs : List (GConf T)) (hne : cs ≠ []) (hg : ∀ c ∈ cs, GoodConf m tk c) :
    linReduces m tk (fuel + 1) p acc cs =
      if 2 ≤ cnt p + roots (accs m tk cs) then .error .panic
      else if acc ++ accs m tk cs = [] ∧ ∀ c ∈ cs, actsOf m tk c = [] then .ok (.unexpected (cs.flatMap (errOf m tk)))
      else linReduces m tk fuel (p || (accs m tk cs).any GConf.isRoot) (acc ++ accs m tk cs) (news m tk cs) := by
  obtain ⟨c, cs', rfl⟩ := List.exists_cons_of_ne_nil hne
  have h1 := linStacks_accum (c :: cs') hg ⟨p, acc, []⟩ []
  rw [accum_all _ _ (by unfold cnt; split <;> omega), contribs_accs, contribs_news] at h1
  conv_lhs => unfold linReduces
  rw [h1]
  simp only
  by_cases h2 : 2 ≤ cnt p + roots (accs m tk (c :: cs'))
  · rw [if_pos h2, if_pos h2]; rfl
  · rw [if_neg h2, if_neg h2]
    simp only [Except.bind, bind, List.nil_append]
    have := errs_len (c :: cs') hg
    by_cases h3 : acc ++ accs m tk (c :: cs') = [] ∧ ∀ x ∈ c :: cs', actsOf m tk x = []
    · rw [if_pos h3, if_pos ⟨h3.1, this.mpr h3.2⟩]
    · rw [if_neg h3, if_neg (fun h => h3 ⟨h.1, this.mp h.2⟩)]

/-- what reductions lead to in the end: a stack that shifts, or a finished one -/
inductive Final (m : GlrMachine) (tk : Tok) : GConf T → GConf T → Prop
  | fin {c c' : GConf T} {a : LRAction} : a ∈ actsOf m tk c → c' ∈ accOf m c a → Final m tk c c'
  | red {c c1 c' : GConf T} {a : LRAction} : a ∈ actsOf m tk c → c1 ∈ newOf m c a → Final m tk c1 c' → Final m tk c c'

theorem mem_accs {cs : List (GConf T)} {c' : GConf T} : c' ∈ accs m tk cs ↔ ∃ c ∈ cs, ∃ a ∈ actsOf m tk c, c' ∈ accOf m c a := by
  simp only [accs, List.mem_flatMap]

theorem mem_news {cs : List (GConf T)} {c' : GConf T} : c' ∈ news m tk cs ↔ ∃ c ∈ cs, ∃ a ∈ actsOf m tk c, c' ∈ newOf m c a := by
  simp only [news, List.mem_flatMap]

theorem final_round {cs : List (GConf T)} {c' : GConf T} :
    (∃ c ∈ cs, Final m tk c c') ↔ c' ∈ accs m tk cs ∨ ∃ c ∈ news m tk cs, Final m tk c c' := by
  constructor
  · rintro ⟨c, hc, hf⟩
    cases hf with
    | fin h1 h2 => exact .inl (mem_accs.mpr ⟨c, hc, _, h1, h2⟩)
    | red h1 h2 h3 => exact .inr ⟨_, mem_news.mpr ⟨c, hc, _, h1, h2⟩, h3⟩
  · rintro (h | ⟨c, h, hf⟩)
    · obtain ⟨c, hc, a, h1, h2⟩ := mem_accs.mp h
      exact ⟨c, hc, .fin h1 h2⟩
    · obtain ⟨c0, hc, a, h1, h2⟩ := mem_news.mp h
      exact ⟨c0, hc, .red h1 h2 hf⟩

/-- histories none of which is the beginning of another one -/
def Anti {E : Type} (L : List (List E)) : Prop := L.Pairwise (fun a b => ¬ a <+: b ∧ ¬ b <+: a)

/-- the visit of an action -/
def evOf (tk : Tok) (d : T) : LRAction → LREvent T
  | .shift => .shift tk d
  | .reduce i => .reduce i

theorem evOf_inj (tk : Tok) (d : T) : Function.Injective (evOf tk d) := by
  intro a b h
  cases a <;> cases b <;> simp_all [evOf]

/-- the history of a finished configuration, with the shift to come -/
def fhist (tk : Tok) (d : T) : GConf T → List (LREvent T)
  | .live _ ev => ev ++ [.shift tk d]
  | .root ev => ev

theorem Anti.perm {E : Type} {L L' : List (List E)} (h : Anti L) (hp : L.Perm L') : Anti L' :=
  (hp.pairwise_iff (fun h => ⟨h.2, h.1⟩)).mp h

theorem prefix_snoc_ne {E : Type} {u : List E} {a b : E} (h : u ++ [a] <+: u ++ [b]) : a = b := by
  rw [List.prefix_append_right_inj] at h
  simpa using h

theorem Anti.expand_one {E : Type} {L : List (List E)} {u : List E} {xs : List E} (h : Anti (L ++ [u])) (hx : xs.Nodup) : Anti (L ++ xs.map (fun x => u ++ [x])) := by
  unfold Anti at *
  rw [List.pairwise_append] at h ⊢
  refine ⟨h.1, ?_, ?_⟩
  · rw [List.pairwise_map]
    refine hx.imp ?_
    intro a b hab
    exact ⟨fun h => hab (prefix_snoc_ne h), fun h => hab (prefix_snoc_ne h).symm⟩
  · intro a ha b hb
    obtain ⟨x, hx, rfl⟩ := List.mem_map.mp hb
    obtain ⟨h1, h2⟩ := h.2.2 a ha u (by simp)
    refine ⟨fun hp => ?_, fun hp => h2 ((List.prefix_append _ _).trans hp)⟩
    rcases List.prefix_or_prefix_of_prefix hp (List.prefix_append u [x]) with h | h
    · exact h1 h
    · exact h2 h

theorem Anti.expand {E : Type} {α : Type} (f : α → List E) (k : α → List E) : ∀ (cs : List α) (L : List (List E)), Anti (L ++ cs.map f) → (∀ c ∈ cs, (k c).Nodup) →
    Anti (L ++ cs.flatMap (fun c => (k c).map (fun x => f c ++ [x]))) := by
  intro cs
  induction cs with
  | nil => intro L h _; simpa using h
  | cons c cs ih =>
    intro L h hk
    rw [List.flatMap_cons, ← List.append_assoc]
    refine ih _ ?_ (fun c hc => hk c (by simp [hc]))
    have h1 : Anti ((L ++ cs.map f) ++ [f c]) := h.perm (by
      rw [List.map_cons, List.append_assoc]
      exact List.Perm.append_left _ (List.perm_append_comm (l₁ := [f c])))
    refine (h1.expand_one (hk c (by simp))).perm ?_
    rw [List.append_assoc, List.append_assoc]
    exact List.Perm.append_left _ List.perm_append_comm

theorem child_hist {c : GConf T} (hg : GoodConf m tk c) (d : T) {a : LRAction} (ha : a ∈ actsOf m tk c) :
    (accOf m c a).map (fhist tk d) ++ (newOf m c a).map GConf.ev = [c.ev ++ [evOf tk d a]] := by
  obtain ⟨q, rest, ev, rfl, h2, h2', h3⟩ := id hg.live
  cases a with
  | shift => simp [accOf, newOf, fhist, GConf.ev, evOf]
  | reduce i =>
    unfold actsOf at ha
    cases hn : m.nextActions q tk with
    | panic => simp [hn] at ha
    | unexpected _ => simp [hn] at ha
    | acts l =>
      simp only [hn] at ha
      obtain ⟨c', hc'⟩ := h3 l i hn ha
      have hev : c'.ev = ev ++ [.reduce i] := by
        unfold linReduce at hc'
        split at hc'
        · cases hc'
        · split at hc'
          · split at hc' <;> simp at hc' <;> subst hc' <;> rfl
          · cases hc'
      simp only [accOf, newOf, hc', evOf, GConf.ev]
      cases c' with
      | live s e => simp only [GConf.ev] at hev; simp [GConf.ev, hev]
      | root e => simp only [GConf.ev] at hev; simp [fhist, hev]

theorem perm_flat {α β : Type} (f g : α → List β) : ∀ l : List α, (l.flatMap f ++ l.flatMap g).Perm (l.flatMap (fun x => f x ++ g x)) := by
  intro l
  induction l with
  | nil => simp
  | cons a l ih =>
    simp only [List.flatMap_cons]
    have : (f a ++ l.flatMap f ++ (g a ++ l.flatMap g)).Perm (f a ++ g a ++ (l.flatMap f ++ l.flatMap g)) := by
      rw [List.append_assoc, List.append_assoc]
      refine List.Perm.append_left _ ?_
      rw [← List.append_assoc, ← List.append_assoc]
      exact List.Perm.append_right _ List.perm_append_comm
    exact this.trans (List.Perm.append_left _ ih)

/-- a round keeps histories apart -/
theorem anti_round {cs : List (GConf T)} {acc : List (GConf T)} (d : T) (hg : ∀ c ∈ cs, GoodConf m tk c) (hn : ∀ c ∈ cs, (actsOf m tk c).Nodup)
    (h : Anti (acc.map (fhist tk d) ++ cs.map GConf.ev)) : Anti ((acc ++ accs m tk cs).map (fhist tk d) ++ (news m tk cs).map GConf.ev) := by
  have h1 := Anti.expand (E := LREvent T) GConf.ev (fun c => (actsOf m tk c).map (evOf tk d)) cs _ h (fun c hc => (hn c hc).map (evOf_inj tk d))
  refine h1.perm ?_
  rw [List.map_append, List.append_assoc]
  refine List.Perm.append_left _ ?_
  have e : cs.flatMap (fun c => ((actsOf m tk c).map (evOf tk d)).map (fun x => c.ev ++ [x])) =
      cs.flatMap (fun c => (actsOf m tk c).flatMap (fun a => (accOf m c a).map (fhist tk d) ++ (newOf m c a).map GConf.ev)) := by
    rw [List.flatMap_congr]
    intro c hc
    rw [List.map_map]
    have : ∀ l : List LRAction, (∀ a ∈ l, a ∈ actsOf m tk c) → l.map ((fun x => c.ev ++ [x]) ∘ evOf tk d) = l.flatMap (fun a => (accOf m c a).map (fhist tk d) ++ (newOf m c a).map GConf.ev) := by
      intro l
      induction l with
      | nil => intro _; rfl
      | cons a l ih =>
        intro hl
        rw [List.map_cons, List.flatMap_cons, child_hist (hg c hc) d (hl a (by simp)), ih (fun x hx => hl x (by simp [hx]))]
        rfl
    exact this _ (fun _ h => h)
  rw [e]
  have e2 : cs.flatMap (fun c => (actsOf m tk c).flatMap (fun a => (accOf m c a).map (fhist tk d) ++ (newOf m c a).map GConf.ev)) =
      (cs.flatMap (fun c => (actsOf m tk c).map (fun a => (c, a)))).flatMap (fun x => (accOf m x.1 x.2).map (fhist tk d) ++ (newOf m x.1 x.2).map GConf.ev) := by
    simp only [List.flatMap_assoc, List.flatMap_map]
  rw [e2]
  refine (perm_flat _ _ _).symm.trans ?_
  have e3 : (accs m tk cs).map (fhist tk d) = (cs.flatMap (fun c => (actsOf m tk c).map (fun a => (c, a)))).flatMap (fun x => (accOf m x.1 x.2).map (fhist tk d)) := by
    simp only [accs, List.flatMap_assoc, List.flatMap_map, List.map_flatMap]
  have e4 : (news m tk cs).map GConf.ev = (cs.flatMap (fun c => (actsOf m tk c).map (fun a => (c, a)))).flatMap (fun x => (newOf m x.1 x.2).map GConf.ev) := by
    simp only [news, List.flatMap_assoc, List.flatMap_map, List.map_flatMap]
  rw [e3, e4]

/-- two finished configurations have different histories -/
theorem anti_roots {L : List (GConf T)} {R : List (List (LREvent T))} {d : T} (h : Anti (L.map (fhist tk d) ++ R)) (h2 : 2 ≤ roots L) :
    ∃ e e', e ≠ e' ∧ GConf.root e ∈ L ∧ GConf.root e' ∈ L := by
  have hL : L.Pairwise (fun a b => ¬ fhist tk d a <+: fhist tk d b ∧ ¬ fhist tk d b <+: fhist tk d a) := by
    unfold Anti at h
    rw [List.pairwise_append] at h
    exact List.pairwise_map.mp h.1
  clear h
  have hf : 2 ≤ (L.filter GConf.isRoot).length := by rwa [← List.countP_eq_length_filter]
  have hF := hL.filter GConf.isRoot
  cases hl : L.filter GConf.isRoot with
  | nil => rw [hl] at hf; simp at hf
  | cons a l =>
    cases l with
    | nil => rw [hl] at hf; simp at hf
    | cons b l =>
      rw [hl] at hF
      have ha : a ∈ L.filter GConf.isRoot := by rw [hl]; simp
      have hb : b ∈ L.filter GConf.isRoot := by rw [hl]; simp
      rw [List.mem_filter] at ha hb
      cases a with
      | live _ _ => simp [GConf.isRoot] at ha
      | root e =>
        cases b with
        | live _ _ => simp [GConf.isRoot] at hb
        | root e' =>
          refine ⟨e, e', ?_, ha.1, hb.1⟩
          rintro rfl
          have := (List.pairwise_cons.mp hF).1 (.root e) (by simp)
          exact this.1 (List.prefix_refl _)

/-- an invariant of configurations kept by reductions -/
structure RedInv (m : GlrMachine) (tk : Tok) (Q : GConf T → Prop) : Prop where
  good : ∀ c, Q c → GoodConf m tk c
  nodup : ∀ c, Q c → (actsOf m tk c).Nodup
  new : ∀ c, Q c → ∀ a ∈ actsOf m tk c, ∀ c' ∈ newOf m c a, Q c'

theorem RedInv.news {Q : GConf T → Prop} (hq : RedInv m tk Q) {cs : List (GConf T)} (h : ∀ c ∈ cs, Q c) : ∀ c ∈ news m tk cs, Q c := by
  intro c hc
  obtain ⟨c0, h0, a, h1, h2⟩ := mem_news.mp hc
  exact hq.new c0 (h c0 h0) a h1 c h2

/-- what the reductions compute -/
def ReducedIs (m : GlrMachine) (tk : Tok) (acc cs : List (GConf T)) (d : T) : Res (LinReduced T) → Prop
  | .ok (.ok p red) => (∀ c, c ∈ red ↔ c ∈ acc ∨ ∃ c0 ∈ cs, Final m tk c0 c) ∧ roots red = cnt p ∧ Anti (red.map (fhist tk d)) ∧ (acc ≠ [] ∨ cs ≠ [] → red ≠ [])
  | .ok (.unexpected _) => acc = [] ∧ ∀ c0 ∈ cs, ∀ c, ¬ Final m tk c0 c
  | .error .panic => ∃ e e', e ≠ e' ∧ (GConf.root e ∈ acc ∨ ∃ c0 ∈ cs, Final m tk c0 (.root e)) ∧ (GConf.root e' ∈ acc ∨ ∃ c0 ∈ cs, Final m tk c0 (.root e'))
  | .error .fuel => cs ≠ []

theorem linReduces_spec {Q : GConf T → Prop} (hq : RedInv m tk Q) (d : T) : ∀ (fuel : Nat) (p : Bool) (acc cs : List (GConf T)), (∀ c ∈ cs, Q c) → roots acc = cnt p →
    Anti (acc.map (fhist tk d) ++ cs.map GConf.ev) → ReducedIs m tk acc cs d (linReduces m tk fuel p acc cs) := by
  intro fuel
  induction fuel with
  | zero =>
    intro p acc cs hc hr ha
    cases cs with
    | nil => exact ⟨by simp, hr, by simpa using ha, by simp⟩
    | cons c cs => simp [linReduces, ReducedIs]
  | succ fuel ih =>
    intro p acc cs hc hr ha
    by_cases hne : cs = []
    · subst hne; exact ⟨by simp, hr, by simpa using ha, by simp⟩
    have hg : ∀ c ∈ cs, GoodConf m tk c := fun c h => hq.good c (hc c h)
    have hanti := anti_round d hg (fun c h => hq.nodup c (hc c h)) ha
    rw [linReduces_round fuel p acc cs hne hg]
    split
    · rename_i h2
      rw [← hr, ← roots_append] at h2
      obtain ⟨e, e', h3, h4, h5⟩ := anti_roots hanti h2
      refine ⟨e, e', h3, ?_, ?_⟩
      · rcases List.mem_append.mp h4 with h | h
        · exact .inl h
        · exact .inr (final_round.mpr (.inl h))
      · rcases List.mem_append.mp h5 with h | h
        · exact .inl h
        · exact .inr (final_round.mpr (.inl h))
    · rename_i h2
      split
      · rename_i h3
        refine ⟨(List.append_eq_nil_iff.mp h3.1).1, fun c0 h0 c hf => ?_⟩
        cases hf with
        | fin h _ => rw [h3.2 c0 h0] at h; simp at h
        | red h _ _ => rw [h3.2 c0 h0] at h; simp at h
      · rename_i h3
        have := ih (p || (accs m tk cs).any GConf.isRoot) (acc ++ accs m tk cs) (news m tk cs) (hq.news hc) (by
          rw [roots_append, hr, cnt_or _ _ (by omega)]) hanti
        revert this
        have hnonempty : acc ++ accs m tk cs ≠ [] ∨ news m tk cs ≠ [] := by
          by_contra hcon
          rw [not_or, not_not, not_not] at hcon
          refine h3 ⟨hcon.1, fun c hcm => ?_⟩
          by_contra hac
          obtain ⟨a, as, has⟩ := List.exists_cons_of_ne_nil hac
          have ham : a ∈ actsOf m tk c := by rw [has]; simp
          have hch := child_hist (hg c hcm) d ham
          have h1 : accOf m c a = [] := by
            cases hx : accOf m c a with
            | nil => rfl
            | cons x xs =>
              have : x ∈ acc ++ accs m tk cs := List.mem_append_right _ (mem_accs.mpr ⟨c, hcm, a, ham, by rw [hx]; simp⟩)
              rw [hcon.1] at this; simp at this
          have h2 : newOf m c a = [] := by
            cases hx : newOf m c a with
            | nil => rfl
            | cons x xs =>
              have : x ∈ news m tk cs := mem_news.mpr ⟨c, hcm, a, ham, by rw [hx]; simp⟩
              rw [hcon.2] at this; simp at this
          rw [h1, h2] at hch
          simp at hch
        cases linReduces m tk fuel (p || (accs m tk cs).any GConf.isRoot) (acc ++ accs m tk cs) (news m tk cs) with
        | error e =>
          cases e with
          | panic =>
            rintro ⟨e, e', h4, h5, h6⟩
            refine ⟨e, e', h4, ?_, ?_⟩
            · rw [final_round, ← or_assoc, ← List.mem_append]; exact h5
            · rw [final_round, ← or_assoc, ← List.mem_append]; exact h6
          | fuel => intro _; exact hne
        | ok r =>
          cases r with
          | ok p' red =>
            rintro ⟨h4, h5, h6, h7⟩
            refine ⟨fun c => ?_, h5, h6, fun _ => h7 hnonempty⟩
            rw [h4, List.mem_append, or_assoc, ← final_round]
          | unexpected es =>
            rintro ⟨h4, h5⟩
            obtain ⟨h6, h7⟩ := List.append_eq_nil_iff.mp h4
            refine ⟨h6, fun c0 h0 c hf => ?_⟩
            rcases final_round.mp ⟨c0, h0, hf⟩ with h | ⟨c1, h, hf'⟩
            · rw [h7] at h; simp at h
            · exact h5 c1 h c hf'

end Verif
