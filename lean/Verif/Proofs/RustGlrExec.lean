import Verif.Spec.RustGlrRun
import Verif.Proofs.RustGlrHeap
import Verif.Proofs.RustGss

/-! # Executing the statements of the GLR driver -/

set_option autoImplicit false

namespace Verif

/-- the functions of module `gss`, as the model has them -/
abbrev hGss {T : Type} : RGss T := heapGss Nat RVal (RRecord T)

section
variable {σ ρ τ α : Type} (m : DMachine σ ρ) (n : Nat × Nat) (ctx : RForest)

theorem d_nil (s : σ) : m.execs n ctx [] s = .ok (.next s) := by rw [DMachine.execs]
theorem d_one (a : DStmt) (s : σ) : m.execs n ctx [a] s = m.exec n ctx a s := by rw [DMachine.execs]
theorem d_next {a b : DStmt} {ss : List DStmt} {s s' : σ} (h : m.exec n .nil a s = .ok (.next s')) : m.execs n ctx (a :: b :: ss) s = m.execs n ctx (b :: ss) s' := by rw [DMachine.execs, h]
theorem d_err {a b : DStmt} {ss : List DStmt} {s : σ} {e : Err} (h : m.exec n .nil a s = .error e) : m.execs n ctx (a :: b :: ss) s = .error e := by rw [DMachine.execs, h]
theorem d_ret {a b : DStmt} {ss : List DStmt} {s s' : σ} {r : ρ} (h : m.exec n .nil a s = .ok (.ret s' r)) : m.execs n ctx (a :: b :: ss) s = .ok (.ret s' r) := by rw [DMachine.execs, h]
theorem d_simple (ts : RForest) (s : σ) : m.exec n ctx (.simple ts) s = m.act ts s := by rw [DMachine.exec]
theorem d_tail (ts : RForest) (s : σ) : m.exec n ctx (.tail ts) s = m.act (ctx.append ts) s := by rw [DMachine.exec]
theorem d_while (c : RForest) (b : List DStmt) (s : σ) : m.exec n ctx (.whileDo c b) s = dLoop (m.test c) (fun s => m.execs n .nil b s) n.1 n.2 s := by rw [DMachine.exec]
theorem d_for {c : RForest} {b : List DStmt} {s : σ} {us : List (σ → σ)} (h : m.rounds c s = some us) : m.exec n ctx (.forDo c b) s = rEach (fun s => m.execs n .nil b s) us s := by
  rw [DMachine.exec, h]
theorem d_if {before : Option RForest} {c : RForest} {t e : List DStmt} {s : σ} {v : Bool} (h : m.test c s = some v) :
    m.exec n ctx (.ifDo before c t e) s = m.execs n (before.getD ctx) (if v then t else e) s := by
  rw [DMachine.exec, h]
  cases v <;> rfl
theorem d_choice (e : RForest) (arms : List DStmt) (s : σ) : m.exec n ctx (.choice e arms) s = m.execArms n ctx e arms s := by rw [DMachine.exec]
theorem d_hit {e p : RForest} {b as : List DStmt} {s s' : σ} (h : m.hit e p s = .ok (some s')) : m.execArms n ctx e (.arm p b :: as) s = m.execs n ctx b s' := by rw [DMachine.execArms, h]
theorem d_miss {e p : RForest} {b as : List DStmt} {s : σ} (h : m.hit e p s = .ok none) : m.execArms n ctx e (.arm p b :: as) s = m.execArms n ctx e as s := by rw [DMachine.execArms, h]
theorem d_stop {e p : RForest} {b as : List DStmt} {s : σ} {err : Err} (h : m.hit e p s = .error err) : m.execArms n ctx e (.arm p b :: as) s = .error err := by rw [DMachine.execArms, h]

/-- a run of statements does what a step of the model does -/
def Sim (Inv : σ → τ → Prop) (r : Res (ROut σ ρ)) (q : Res τ) : Prop :=
  match q with
  | .error e => r = .error e
  | .ok t => ∃ s, r = .ok (.next s) ∧ Inv s t

theorem sim_each {Inv : σ → τ → Prop} (body : σ → Res (ROut σ ρ)) (F : τ → α → Res τ) (u : α → σ → σ) (H : ∀ s t x, Inv s t → Sim Inv (body (u x s)) (F t x)) (xs : List α) (s : σ) (t : τ)
    (h : Inv s t) : Sim Inv (rEach body (xs.map u) s) (xs.foldlM F t) := by
  induction xs generalizing s t with
  | nil => exact ⟨s, rfl, h⟩
  | cons x xs ih =>
    rw [List.map_cons, List.foldlM_cons, rEach]
    have hx := H s t x h
    cases hF : F t x with
    | error e =>
      rw [hF] at hx
      simp only [Sim] at hx
      rw [hx]; rfl
    | ok t' =>
      rw [hF] at hx
      obtain ⟨s', h1, h2⟩ := hx
      rw [h1]
      exact ih s' t' h2

end

end Verif
