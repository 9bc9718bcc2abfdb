import Verif.Proofs.Template
import Verif.Model.CppTemplates

/-! # C43: templates -/

set_option autoImplicit false

namespace Verif

/-- Writing a template outputs the text of the template with every marker replaced by what its substitution writes, from left to right, all other text being
unchanged; it stops with a panic at the first marker without substitution and with an error at the first substitution that fails. No other outcome is possible. -/
theorem C43_write (s : Substitutions) (template out : List Char) (status : WriteStatus) :
    writeTemplate s template = (out, status) ↔ Rendered s.get template out status := by
  have h := replaceAll_rendered s template.length template (Nat.le_refl _)
  constructor
  · intro e
    unfold writeTemplate at e
    rw [e] at h
    exact h
  · intro h'
    obtain ⟨h1, h2⟩ := rendered_fun h h'
    exact Prod.ext h1 h2

/-- Every text has its markers: they are determined by the text. -/
theorem C43_markers (template : List Char) : ∃ ks, Markers template ks ∧ ∀ ks', Markers template ks' → ks' = ks :=
  ⟨_, markersOf_spec _ template (Nat.le_refl _), fun _ h => markers_fun h (markersOf_spec _ template (Nat.le_refl _))⟩

/-- Writing succeeds exactly when every marker has a substitution that succeeds, and panics exactly when some marker has no substitution and all markers before it
have substitutions that succeed. -/
theorem C43_status (s : Substitutions) (template : List Char) (ks : List (List Char)) (h : Markers template ks) :
    ((writeTemplate s template).2 = .ok ↔ ∀ k ∈ ks, ∃ w, s.get k = some (w, true)) ∧
    ((writeTemplate s template).2 = .panic ↔ ∃ pre k post, ks = pre ++ k :: post ∧ s.get k = none ∧ ∀ k' ∈ pre, ∃ w, s.get k' = some (w, true)) :=
  rendered_status ((C43_write s template _ _).mp rfl) h

/-- A template made of pieces of text in which no marker begins (no `/*{`, not even together with a following `/*`), separated by markers, is written as the
concatenation of these pieces and the texts of the substitutions, whatever these texts are: in particular markers in them are not replaced. -/
theorem C43_pieces (s : Substitutions) (pieces : List (List Char × List Char × List Char)) (last : List Char)
    (hlit : ∀ lit ∈ last :: pieces.map (·.1), ∀ a b, lit ++ ['/', '*'] ≠ a ++ ['/', '*', '{'] ++ b)
    (hkey : ∀ x ∈ pieces, IsKey x.2.1 ∧ ∀ k, IsTrim x.2.1 k → s.get k = some (x.2.2, true)) :
    writeTemplate s ((pieces.map (fun x => x.1 ++ marker x.2.1)).flatten ++ last) = ((pieces.map (fun x => x.1 ++ x.2.2)).flatten ++ last, .ok) := by
  rw [C43_write]
  induction pieces with
  | nil =>
    exact .plain (no_marker_of (hlit last (by simp)) (.inl rfl))
  | cons x pieces ih =>
    have := ih (fun lit h => hlit lit (by
      rcases List.mem_cons.mp h with rfl | h
      · simp
      · exact List.mem_cons_of_mem _ (List.mem_cons_of_mem _ h))) (fun y hy => hkey y (List.mem_cons_of_mem _ hy))
    obtain ⟨h1, h2⟩ := hkey x (by simp)
    have r := Rendered.marker (σ := s.get) (lit := x.1) (no_marker_of (hlit x.1 (by simp)) (.inr ⟨_, _, rfl⟩)) h1 (trim_spec x.2.1) (h2 _ (trim_spec x.2.1)) this
    simpa using r

/-- Supplying a substitution affects its own key only; the last one supplied for a key counts. -/
theorem C43_substitute (key k : List Char) (writes : List Char × Bool) (s : Substitutions) :
    (substitute key writes s).get k = if k = key then some writes else s.get k := substitute_get key writes s k

/-- The templates of the C++ code generator: with substitutions for the keys the generator supplies, whatever they write, writing never panics, and it succeeds if
they succeed. -/
theorem C43_cpp_templates : ∀ t ∈ cppTemplates, ∀ s : Substitutions, (∀ k ∈ t.supplied, s.get k ≠ none) →
    (writeTemplate s t.text).2 ≠ .panic ∧ ((∀ k ∈ t.supplied, ∃ w, s.get k = some (w, true)) → (writeTemplate s t.text).2 = .ok) := by
  intro t ht s hs
  have hk : (cppTemplates.all (fun t => (markersOf t.text.length t.text).all (fun k => t.supplied.contains k))) = true := by decide +kernel
  have hk : ∀ k ∈ markersOf t.text.length t.text, k ∈ t.supplied := by
    intro k hk'
    have := List.all_eq_true.mp hk t ht
    simpa using List.all_eq_true.mp this k hk'
  obtain ⟨h1, h2⟩ := C43_status s t.text _ (markersOf_spec _ t.text (Nat.le_refl _))
  constructor
  · rw [ne_eq, h2]
    rintro ⟨pre, k, post, he, hn, _⟩
    exact hs k (hk k (by rw [he]; simp)) hn
  · intro h
    rw [h1]
    intro k hk'
    exact h k (hk k hk')

theorem used_of (ts : List CppTemplate) (ex : List Char)
    (h : (ts.all (fun t => t.supplied.all (fun k => decide (k ∈ markersOf t.text.length t.text) || decide (k = ex)))) = true) :
    ∀ t ∈ ts, ∀ k ∈ t.supplied, k ≠ ex → ∀ ks, Markers t.text ks → k ∈ ks := by
  intro t ht k hs hne ks hm
  have := List.all_eq_true.mp (List.all_eq_true.mp h t ht) k hs
  rw [markers_fun hm (markersOf_spec _ t.text (Nat.le_refl _))]
  simpa [hne] using this

/-- Each of these substitutions is used, except one. -/
theorem C43_cpp_used : ∀ t ∈ cppTemplates, ∀ k ∈ t.supplied, k ≠ "grammar_entry_non_terminal".toList → ∀ ks, Markers t.text ks → k ∈ ks := by
  refine used_of cppTemplates _ ?_
  decide +kernel

/-- The exception: the substitution supplied for the entry symbol of LL parsers has no effect, and the generated `parser_impl.h` contains the text
`({grammar_entry_non_terminal})` of the template. -/
theorem C43_ll_entry_counterexample (s : Substitutions) (out : List Char) (h : writeTemplate s llImplHeaderTemplate.text = (out, .ok)) :
    "({grammar_entry_non_terminal})".toList <:+: out ∧
    ∀ w, writeTemplate (substitute "grammar_entry_non_terminal".toList w s) llImplHeaderTemplate.text = (out, .ok) := by
  have hm := markersOf_spec _ llImplHeaderTemplate.text (Nat.le_refl _)
  constructor
  · have h1 : "({grammar_entry_non_terminal})".toList <:+: afterLast llImplHeaderTemplate.text.length llImplHeaderTemplate.text := by decide +kernel
    exact h1.trans (replaceAll_afterLast s _ _ _ h).isInfix
  · intro w
    rw [C43_write] at h ⊢
    refine rendered_congr h hm ?_
    intro k hk
    rw [substitute_get, if_neg]
    rintro rfl
    have : "grammar_entry_non_terminal".toList ∉ markersOf llImplHeaderTemplate.text.length llImplHeaderTemplate.text := by decide +kernel
    exact this hk

/-- A `/*{` that is not part of a marker prevents the next marker on the same line from being recognised: its key is what stands between them as well. -/
theorem C43_open_counterexample : ∃ (lit key : List Char) (s : Substitutions), IsKey key ∧ trim key = key ∧ s.get key = some ([], true) ∧
    (writeTemplate s (lit ++ marker key)).2 = .panic :=
  ⟨['/', '*', '{', ' '], ['k'], [(['k'], [], true)], ⟨by decide, by
    intro a b h
    match a with
    | [] => simp at h
    | [x] =>
      simp only [List.cons_append, List.nil_append, List.cons.injEq] at h
      exact h.2.2.2.2.symm
    | x :: y :: a =>
      have := congrArg List.length h
      simp at this
      exact List.eq_nil_of_length_eq_zero (by omega)⟩, by decide +kernel, by decide +kernel, by decide +kernel⟩

/-! ## non-vacuity -/

/-- `a/*{ k }*/b/*{j}*/` with substitutions for `k` and `j`; the text for `k` contains a marker, which stays -/
example : writeTemplate (substitute ['k'] ("/*{j}*/".toList, true) (substitute ['j'] ("J".toList, true) [])) "a/*{ k }*/b/*{j}*/".toList =
    ("a/*{j}*/bJ".toList, .ok) := by decide +kernel

example : writeTemplate (substitute ['k'] ("K".toList, true) []) "a/*{ k }*/b/*{j}*/c".toList = ("aKb".toList, .panic) := by decide +kernel

example : writeTemplate (substitute ['k'] ("K".toList, false) []) "a/*{ k }*/b/*{j}*/c".toList = ("aK".toList, .ioError) := by decide +kernel

example : writeTemplate [] "a/*{ k \n}*/".toList = ("a/*{ k \n}*/".toList, .ok) := by decide +kernel

/-- with substitutions for all its keys, the template of the LR tables is written -/
example : ∀ k ∈ lrImplTemplate.supplied, ∃ w, Substitutions.get (lrImplTemplate.supplied.map (fun k => (k, k, true))) k = some (w, true) := by
  intro k hk
  have : lrImplTemplate.supplied.all (fun k => Substitutions.get (lrImplTemplate.supplied.map (fun k => (k, k, true))) k = some (k, true)) = true := by decide +kernel
  exact ⟨k, by simpa using List.all_eq_true.mp this k hk⟩

end Verif
