import Verif.Proofs.BidiMap
import Verif.Props.LR

/-! # C48: the two-way map -/

set_option autoImplicit false

namespace Verif

variable {A B : Type} [DecidableEq A] [DecidableEq B]

/-- As long as every inserted pair is new on both sides, looking up in both directions and iterating all agree with the pairs inserted and not removed. -/
theorem C48_consistent {m : BidiMap A B} {R : A → B → Prop} (h : FreshHistory m R) (a : A) (b : B) :
    (m.getAToB a = some b ↔ R a b) ∧ (m.getBToA b = some a ↔ R a b) ∧ ((a, b) ∈ m.iter ↔ R a b) ∧ m.iter.Nodup :=
  have hs := freshHistory_stands h
  ⟨hs.ab a b, hs.ba a b, (hs.iter a b).1, (hs.iter a b).2⟩

/-- In these histories the two directions are inverse to each other. -/
theorem C48_inverse {m : BidiMap A B} {R : A → B → Prop} (h : FreshHistory m R) (a : A) (b : B) : m.getAToB a = some b ↔ m.getBToA b = some a :=
  ((C48_consistent h a b).1).trans (C48_consistent h a b).2.1.symm

/-- In these histories removal never panics: it returns and removes the pair if there is one, and changes nothing otherwise. -/
theorem C48_remove {m : BidiMap A B} {R : A → B → Prop} (h : FreshHistory m R) (b : B) :
    (∀ a, R a b → ∃ m', m.removeByB b = .ok (some (a, b), m') ∧ FreshHistory m' (RelRemove b R)) ∧ ((∀ a, ¬ R a b) → m.removeByB b = .ok (none, m)) := by
  refine ⟨fun a hr => ?_, fun hn => ((freshHistory_stands h).remove b).2 hn |>.1⟩
  obtain ⟨m', h1, _⟩ := ((freshHistory_stands h).remove b).1 a hr
  exact ⟨m', h1, .remove b _ h h1⟩

/-- In every history, `None` from a removal means that there was nothing to return: the value is no longer a key afterwards. (The branch that puts the pair back is
never taken.) -/
theorem C48_remove_none {m m' : BidiMap A B} (h : AnyHistory m) (b : B) (r : Option (A × B)) (hr : m.removeByB b = .ok (r, m')) : m'.getBToA b = none := by
  obtain ⟨_, h2⟩ := removeByB_cases (anyHistory_inv h) hr
  unfold BidiMap.getBToA
  rw [h2, rcGet?_remove]
  simp

/-- The generation of the parser graph keeps to such histories: the graph built with the two-way map is the one of the model in which node `q` simply has an item set,
and both directions of the map give this correspondence. In particular removal never panics there. -/
theorem C48_table_generation (g : Grammar) (fs : SymSets) (kind : LRKind) (cfuel fuel : Nat) :
    (∀ e, generateMapGraph g fs kind cfuel fuel = .error e ↔ generateGraph g fs kind cfuel fuel = .error e) ∧
    ∀ gr mg, generateGraph g fs kind cfuel fuel = .ok gr → generateMapGraph g fs kind cfuel fuel = .ok mg →
      mg.edges = gr.edges ∧ mg.nodes = gr.sets.length ∧
      ∀ (set : List Item) (q : Nat), (mg.map.getAToB set = some q ↔ gr.sets[q]? = some set) ∧ (mg.map.getBToA q = some set ↔ gr.sets[q]? = some set) ∧
        ((set, q) ∈ mg.map.iter ↔ gr.sets[q]? = some set) := by
  have h := generateGraph_map g fs kind cfuel fuel
  cases h1 : generateGraph g fs kind cfuel fuel with
  | error e =>
    cases h2 : generateMapGraph g fs kind cfuel fuel with
    | error e' =>
      rw [h1, h2] at h
      cases (show e = e' from h)
      exact ⟨fun _ => ⟨(fun h => by cases h; rfl), (fun h => by cases h; rfl)⟩, fun gr mg hg => by cases hg⟩
    | ok mg => rw [h1, h2] at h; exact h.elim
  | ok gr =>
    cases h2 : generateMapGraph g fs kind cfuel fuel with
    | error e' => rw [h1, h2] at h; exact h.elim
    | ok mg =>
      rw [h1, h2] at h
      refine ⟨fun e => ⟨fun h => (by cases h), fun h => (by cases h)⟩, ?_⟩
      intro gr' mg' e1 e2
      cases e1; cases e2
      have h : MapSim kind.isLalr gr mg := h
      exact ⟨h.edges, h.nodes, fun set q => ⟨h.stands.ab set q, h.stands.ba set q, (h.stands.iter set q).1⟩⟩

/-- Without the condition the directions disagree, and removal can panic: inserting a second value for a key. -/
theorem C48_insert_counterexample : ∃ m : BidiMap Nat Nat, AnyHistory m ∧ m.getBToA 1 = some 0 ∧ m.getAToB 0 ≠ some 1 ∧ m.removeByB 1 = .error .panic :=
  ⟨(BidiMap.new.insert 0 1).insert 0 2, .insert 0 2 (.insert 0 1 .new), by decide, by decide, by decide⟩

/-! ## non-vacuity -/

/-- insert (0,1), insert (5,2), remove by 1, insert (0,3) -/
example : ∃ (m : BidiMap Nat Nat) (R : Nat → Nat → Prop), FreshHistory m R ∧ R 5 2 ∧ R 0 3 ∧ ¬ R 0 1 ∧ m.iter = [(5, 2), (0, 3)] :=
  ⟨_, _, .insert 0 3 (.remove 1 (some (0, 1)) (.insert 5 2 (.insert 0 1 .new (by simp) (by simp)) (by simp [RelInsert]) (by simp [RelInsert])) rfl)
    (by simp [RelInsert, RelRemove]) (by simp [RelInsert, RelRemove]), by simp [RelInsert, RelRemove], by simp [RelInsert, RelRemove], by simp [RelInsert, RelRemove], rfl⟩

/-- `s = ( s ) | a` with LALR, where item sets are replaced -/
example : (generateMapGraph parenGrammar [(.nt 0, [.t 0, .t 2])] .lalr 60 60).toOption.map (fun mg => (mg.nodes, mg.map.next)) = some (5, 11) := by decide +kernel

end Verif
