import Verif.Spec.Sentential

/-! # Nullability, first symbols and following symbols by structural rules -/

set_option autoImplicit false

namespace Verif

/-- the string derives the empty string -/
inductive Nul (rules : List Rule) : List Sym → Prop
  | nil : Nul rules []
  | eps {ss : List Sym} : Nul rules ss → Nul rules (.eps :: ss)
  | nt {r : Rule} {ss : List Sym} : r ∈ rules → Nul rules r.rhs → Nul rules ss → Nul rules (.nt r.lhs :: ss)

/-- the string derives one that starts with `x` -/
inductive FirstIn (rules : List Rule) (x : Sym) : List Sym → Prop
  | here {ss : List Sym} : FirstIn rules x (x :: ss)
  | eps {ss : List Sym} : FirstIn rules x ss → FirstIn rules x (.eps :: ss)
  | ntHere {r : Rule} {ss : List Sym} : r ∈ rules → FirstIn rules x r.rhs → FirstIn rules x (.nt r.lhs :: ss)
  | ntSkip {r : Rule} {ss : List Sym} : r ∈ rules → Nul rules r.rhs → FirstIn rules x ss → FirstIn rules x (.nt r.lhs :: ss)

/-- `x` follows `A` in the entry sequence or a rule, or follows the left side of a rule that can end in `A` -/
inductive FollowIn (g : Grammar) (x : Sym) : Nat → Prop
  | entry {A : Nat} : g.entry = .nt A → x = .eof → FollowIn g x A
  | ctx {r : Rule} {α β : List Sym} {A : Nat} : r ∈ g.rules → r.rhs = α ++ .nt A :: β → FirstIn g.rules x β → FollowIn g x A
  | up {r : Rule} {α β : List Sym} {A : Nat} : r ∈ g.rules → r.rhs = α ++ .nt A :: β → Nul g.rules β → FollowIn g x r.lhs → FollowIn g x A

variable {rules : List Rule}

theorem strip_append (a b : List Sym) : strip (a ++ b) = strip a ++ strip b := List.filter_append ..

theorem strip_nt (A : Nat) (ss : List Sym) : strip (.nt A :: ss) = .nt A :: strip ss := by simp [strip]

theorem strip_term {x : Sym} (hx : x.isTerm) (ss : List Sym) : strip (x :: ss) = x :: strip ss := by
  cases x <;> simp_all [strip, Sym.isTerm]

theorem strip_eps (ss : List Sym) : strip (.eps :: ss) = strip ss := by simp [strip]

theorem nul_append {a b : List Sym} : Nul rules (a ++ b) ↔ Nul rules a ∧ Nul rules b := by
  induction a with
  | nil => simp; exact fun _ => .nil
  | cons s a ih =>
    rw [List.cons_append]
    constructor
    · intro h
      cases h with
      | eps h => exact ⟨.eps (ih.mp h).1, (ih.mp h).2⟩
      | nt hr h1 h => exact ⟨.nt hr h1 (ih.mp h).1, (ih.mp h).2⟩
    · rintro ⟨h, hb⟩
      cases h with
      | eps h => exact .eps (ih.mpr ⟨h, hb⟩)
      | nt hr h1 h => exact .nt hr h1 (ih.mpr ⟨h, hb⟩)

theorem firstIn_append {x : Sym} {a b : List Sym} (hx : x.isTerm) :
    FirstIn rules x (a ++ b) ↔ FirstIn rules x a ∨ (Nul rules a ∧ FirstIn rules x b) := by
  induction a with
  | nil =>
    simp only [List.nil_append]
    constructor
    · intro h; exact .inr ⟨.nil, h⟩
    · rintro (h | ⟨_, h⟩)
      · cases h
      · exact h
  | cons s a ih =>
    rw [List.cons_append]
    constructor
    · intro h
      cases h with
      | here => exact .inl .here
      | eps h =>
        rcases ih.mp h with h | ⟨h1, h2⟩
        · exact .inl (.eps h)
        · exact .inr ⟨.eps h1, h2⟩
      | ntHere hr h => exact .inl (.ntHere hr h)
      | ntSkip hr h1 h =>
        rcases ih.mp h with h | ⟨h2, h3⟩
        · exact .inl (.ntSkip hr h1 h)
        · exact .inr ⟨.nt hr h1 h2, h3⟩
    · rintro (h | ⟨h, hb⟩)
      · cases h with
        | here => exact .here
        | eps h => exact .eps (ih.mpr (.inl h))
        | ntHere hr h => exact .ntHere hr h
        | ntSkip hr h1 h => exact .ntSkip hr h1 (ih.mpr (.inl h))
      · cases h with
        | eps h => exact .eps (ih.mpr (.inr ⟨h, hb⟩))
        | nt hr h1 h => exact .ntSkip hr h1 (ih.mpr (.inr ⟨h, hb⟩))

theorem nul_strip {ss : List Sym} : Nul rules (strip ss) ↔ Nul rules ss := by
  induction ss with
  | nil => simp [strip]
  | cons s ss ih =>
    by_cases hs : s = .eps
    · subst hs
      rw [strip_eps, ih]
      exact ⟨.eps, fun h => by cases h; assumption⟩
    · have : strip (s :: ss) = s :: strip ss := by simp [strip, hs]
      rw [this]
      constructor
      · intro h
        cases h with
        | eps h => exact absurd rfl hs
        | nt hr h1 h => exact .nt hr h1 (ih.mp h)
      · intro h
        cases h with
        | eps h => exact absurd rfl hs
        | nt hr h1 h => exact .nt hr h1 (ih.mpr h)

theorem firstIn_strip {x : Sym} {ss : List Sym} (hx : x.isTerm) : FirstIn rules x (strip ss) ↔ FirstIn rules x ss := by
  induction ss with
  | nil => simp [strip]
  | cons s ss ih =>
    by_cases hs : s = .eps
    · subst hs
      rw [strip_eps, ih]
      refine ⟨.eps, fun h => ?_⟩
      cases h with
      | here => exact absurd hx (by simp [Sym.isTerm])
      | eps h => exact h
    · have : strip (s :: ss) = s :: strip ss := by simp [strip, hs]
      rw [this]
      constructor
      · intro h
        cases h with
        | here => exact .here
        | eps h => exact absurd rfl hs
        | ntHere hr h => exact .ntHere hr h
        | ntSkip hr h1 h => exact .ntSkip hr h1 (ih.mp h)
      · intro h
        cases h with
        | here => exact .here
        | eps h => exact absurd rfl hs
        | ntHere hr h => exact .ntHere hr h
        | ntSkip hr h1 h => exact .ntSkip hr h1 (ih.mpr h)

/-! ## Rewriting -/

theorem Rewrites.trans {x y z : List Sym} (h1 : Rewrites rules x y) (h2 : Rewrites rules y z) : Rewrites rules x z := by
  induction h2 with
  | refl => exact h1
  | step _ hr ih => exact .step ih hr

theorem Rewrites.ctx {x y : List Sym} (h : Rewrites rules x y) (a b : List Sym) : Rewrites rules (a ++ x ++ b) (a ++ y ++ b) := by
  induction h with
  | refl => exact .refl
  | @step α β r _ hr ih =>
    have : a ++ (α ++ .nt r.lhs :: β) ++ b = (a ++ α) ++ .nt r.lhs :: (β ++ b) := by simp
    rw [this] at ih
    have := Rewrites.step ih hr
    simpa using this

theorem Rewrites.rule {r : Rule} (hr : r ∈ rules) : Rewrites rules [.nt r.lhs] (strip r.rhs) := by
  have := Rewrites.step (rules := rules) (α := []) (β := []) (r := r) (x := [.nt r.lhs]) .refl hr
  simpa using this

theorem nul_back {x y : List Sym} (h : Rewrites rules x y) (hn : Nul rules y) : Nul rules x := by
  induction h with
  | refl => exact hn
  | step _ hr ih =>
    apply ih
    rw [nul_append, nul_append, nul_strip] at hn
    rw [nul_append]
    exact ⟨hn.1.1, .nt hr hn.1.2 hn.2⟩

theorem firstIn_unrule {x : Sym} {α β : List Sym} {r : Rule} (hx : x.isTerm) (hr : r ∈ rules) (hf : FirstIn rules x (α ++ strip r.rhs ++ β)) :
    FirstIn rules x (α ++ .nt r.lhs :: β) := by
  rw [firstIn_append hx, firstIn_append hx, nul_append, nul_strip, firstIn_strip hx] at hf
  rw [firstIn_append hx]
  rcases hf with (h | ⟨h1, h2⟩) | ⟨⟨h1, h2⟩, h3⟩
  · exact .inl h
  · exact .inr ⟨h1, .ntHere hr h2⟩
  · exact .inr ⟨h1, .ntSkip hr h2 h3⟩

theorem firstIn_back {s : Sym} {x y : List Sym} (hs : s.isTerm) (h : Rewrites rules x y) (hf : FirstIn rules s y) : FirstIn rules s x := by
  induction h with
  | refl => exact hf
  | step _ hr ih => exact ih (firstIn_unrule hs hr hf)

theorem nul_rewrites {ss : List Sym} (h : Nul rules ss) : Rewrites rules (strip ss) [] := by
  induction h with
  | nil => exact .refl
  | eps _ ih => rw [strip_eps]; exact ih
  | @nt r ss hr _ _ ih1 ih2 =>
    rw [strip_nt]
    have h1 := ((Rewrites.rule hr).trans ih1).ctx [] (strip ss)
    exact (by simpa using h1 : Rewrites rules (.nt r.lhs :: strip ss) (strip ss)).trans ih2

theorem firstIn_rewrites {x : Sym} {ss : List Sym} (hx : x.isTerm) (h : FirstIn rules x ss) : ∃ β, Rewrites rules (strip ss) (x :: β) := by
  induction h with
  | here => exact ⟨_, by rw [strip_term hx]; exact .refl⟩
  | eps _ ih => rw [strip_eps]; exact ih
  | @ntHere r ss hr _ ih =>
    obtain ⟨β, hβ⟩ := ih
    rw [strip_nt]
    have h1 := ((Rewrites.rule hr).trans hβ).ctx [] (strip ss)
    exact ⟨β ++ strip ss, by simpa using h1⟩
  | @ntSkip r ss hr hn _ ih =>
    obtain ⟨β, hβ⟩ := ih
    rw [strip_nt]
    have h1 := ((Rewrites.rule hr).trans (nul_rewrites hn)).ctx [] (strip ss)
    exact ⟨β, (by simpa using h1 : Rewrites rules (.nt r.lhs :: strip ss) (strip ss)).trans hβ⟩

/-- first symbols by rules and by rewriting agree -/
theorem firstIn_iff {g : Grammar} {A : Nat} {x : Sym} (hx : x.isTerm) : FirstIn g.rules x [.nt A] ↔ StartsWith g A x := by
  constructor
  · intro h
    obtain ⟨β, hβ⟩ := firstIn_rewrites hx h
    exact ⟨β, by simpa [strip] using hβ⟩
  · rintro ⟨β, hβ⟩
    exact firstIn_back hx hβ .here

theorem nul_iff {g : Grammar} {A : Nat} : Nul g.rules [.nt A] ↔ DerivesEmpty g A := by
  constructor
  · intro h
    have := nul_rewrites h
    rw [strip_nt] at this
    exact this
  · intro h
    exact nul_back h .nil

/-- an occurrence of a symbol in a stripped list comes from the list -/
theorem strip_split {ss α β : List Sym} {s : Sym} (h : strip ss = α ++ s :: β) :
    ∃ α' β', ss = α' ++ s :: β' ∧ strip α' = α ∧ strip β' = β := by
  induction ss generalizing α with
  | nil => simp [strip] at h
  | cons a ss ih =>
    by_cases ha : a = .eps
    · subst ha
      rw [strip_eps] at h
      obtain ⟨α', β', h1, h2, h3⟩ := ih h
      exact ⟨.eps :: α', β', by simp [h1], by rw [strip_eps]; exact h2, h3⟩
    · have e : strip (a :: ss) = a :: strip ss := by simp [strip, ha]
      rw [e] at h
      cases α with
      | nil =>
        simp at h
        exact ⟨[], ss, by simp [h.1], rfl, h.2⟩
      | cons b α =>
        simp at h
        obtain ⟨α', β', h1, h2, h3⟩ := ih h.2
        refine ⟨a :: α', β', by simp [h1], ?_, h3⟩
        have e2 : strip (a :: α') = a :: strip α' := by simp [strip, ha]
        rw [e2, h2, h.1]

theorem firstIn_eof_sing {x : Sym} (h : FirstIn rules x [.eof]) : x = .eof := by cases h; rfl

theorem followIn_rewrites {g : Grammar} {x : Sym} {A : Nat} (hx : x.isTerm) (h : FollowIn g x A) : CanFollow g A x ∨ CanFollowInside g A x := by
  induction h with
  | entry h1 h2 => exact .inl ⟨[], [], by rw [h1, h2]; exact .refl⟩
  | @ctx r α β A hr he hf =>
    obtain ⟨γ, hγ⟩ := firstIn_rewrites hx hf
    have h1 := Rewrites.rule hr
    rw [he, strip_append, strip_nt] at h1
    have h2 := hγ.ctx (strip α ++ [.nt A]) []
    exact .inr ⟨r.lhs, strip α, γ, h1.trans (by simpa using h2)⟩
  | @up r α β A hr he hn _ ih =>
    have key : ∀ start α' β', Rewrites g.rules start (α' ++ .nt r.lhs :: x :: β') → Rewrites g.rules start ((α' ++ strip α) ++ .nt A :: x :: β') := by
      intro start α' β' h
      have h1 := Rewrites.step h hr
      rw [he, strip_append, strip_nt] at h1
      have h2 := (nul_rewrites hn).ctx (α' ++ strip α ++ [.nt A]) (x :: β')
      exact h1.trans (by simpa using h2)
    rcases ih with ⟨α', β', h⟩ | ⟨B, α', β', h⟩
    · exact .inl ⟨_, _, key _ _ _ h⟩
    · exact .inr ⟨B, _, _, key _ _ _ h⟩

theorem follow_invariant {g : Grammar} {x : Sym} {start y : List Sym} (hx : x.isTerm)
    (h0 : ∀ α A β, start = α ++ .nt A :: β → FirstIn g.rules x β → FollowIn g x A) (h : Rewrites g.rules start y) :
    ∀ α A β, y = α ++ .nt A :: β → FirstIn g.rules x β → FollowIn g x A := by
  induction h with
  | refl => exact h0
  | @step α' β' r _ hr ih =>
    intro α A β he hf
    -- where is the occurrence of `A`
    rw [List.append_assoc, List.append_eq_append_iff] at he
    rcases he with ⟨δ, rfl, he⟩ | ⟨δ, rfl, he⟩
    · -- in the right side or after it
      rw [List.append_eq_append_iff] at he
      rcases he with ⟨ε, rfl, he⟩ | ⟨ε, he1, he2⟩
      · exact ih (α' ++ .nt r.lhs :: ε) A β (by rw [he]; simp) hf
      · cases ε with
        | nil =>
          simp at he2
          exact ih (α' ++ [.nt r.lhs]) A β (by rw [← he2]; simp) hf
        | cons s ε =>
          simp at he2
          obtain ⟨rfl, rfl⟩ := he2
          obtain ⟨a, b, h1, h2, h3⟩ := strip_split he1
          rw [firstIn_append hx, ← h3, firstIn_strip hx, nul_strip] at hf
          rcases hf with hf | ⟨hn, hf⟩
          · exact .ctx hr h1 hf
          · exact .up hr h1 hn (ih α' r.lhs β' rfl hf)
    · -- before it
      cases δ with
      | nil =>
        -- the occurrence is the first symbol after `α'`
        simp only [List.nil_append, List.append_nil] at he ih
        cases hrhs : strip r.rhs with
        | nil =>
          rw [hrhs, List.nil_append] at he
          exact ih (α ++ [.nt r.lhs]) A β (by rw [← he]; simp) hf
        | cons s rest =>
          rw [hrhs] at he
          simp at he
          obtain ⟨e1, rfl⟩ := he
          subst e1
          obtain ⟨a, b, h1, h2, h3⟩ := strip_split (α := []) hrhs
          rw [firstIn_append hx, ← h3, firstIn_strip hx, nul_strip] at hf
          rcases hf with hf | ⟨hn, hf⟩
          · exact .ctx hr h1 hf
          · exact .up hr h1 hn (ih α r.lhs β' rfl hf)
      | cons s δ =>
        simp at he
        obtain ⟨e1, rfl⟩ := he
        subst e1
        refine ih α A (δ ++ .nt r.lhs :: β') (by simp) ?_
        apply firstIn_unrule hx hr
        simpa using hf

theorem followIn_iff {g : Grammar} {x : Sym} {A : Nat} (hx : x.isTerm) (he : ∃ E, g.entry = .nt E) :
    FollowIn g x A ↔ CanFollow g A x ∨ CanFollowInside g A x := by
  refine ⟨followIn_rewrites hx, ?_⟩
  rintro (⟨α, β, h⟩ | ⟨B, α, β, h⟩)
  · refine follow_invariant hx ?_ h α A (x :: β) rfl .here
    intro α A β h hf
    obtain ⟨E, hE⟩ := he
    cases α with
    | nil =>
      simp at h
      obtain ⟨h1, rfl⟩ := h
      exact .entry h1 (firstIn_eof_sing hf)
    | cons a α =>
      simp at h
      cases α with
      | nil => simp at h
      | cons b α => simp at h
  · refine follow_invariant hx ?_ h α A (x :: β) rfl .here
    intro α A β h hf
    cases α with
    | nil => simp at h; obtain ⟨_, rfl⟩ := h; cases hf
    | cons a α => simp at h

/-- with all non-terminals reachable, following inside some derivation is following in one from the entry symbol -/
theorem canFollow_of_inside {g : Grammar} {x : Sym} {A : Nat} (hr : ∀ B, Sym.nt B ∈ g.nonTerminals → Reachable g B)
    (hd : ∀ r ∈ g.rules, Sym.nt r.lhs ∈ g.nonTerminals)
    (h : CanFollowInside g A x) : CanFollow g A x := by
  obtain ⟨B, α, β, h⟩ := h
  by_cases hB : Sym.nt B ∈ g.nonTerminals
  · obtain ⟨a, b, h1⟩ := hr B hB
    have h2 := h1.ctx [] [.eof]
    have h3 := h.ctx a (b ++ [.eof])
    refine ⟨a ++ α, β ++ (b ++ [.eof]), ?_⟩
    refine (by simpa using h2 : Rewrites g.rules [g.entry, .eof] (a ++ .nt B :: (b ++ [.eof]))).trans ?_
    simpa using h3
  · -- nothing can be rewritten
    exfalso
    have key : ∀ y, Rewrites g.rules [.nt B] y → y = [.nt B] := by
      intro y hy
      induction hy with
      | refl => rfl
      | @step α β r _ hr ih =>
        cases α with
        | nil => simp at ih; exact absurd (ih.1 ▸ hd _ hr) hB
        | cons a α => simp at ih
    have := key _ h
    cases α with
    | nil => simp at this
    | cons a α => simp at this

end Verif
