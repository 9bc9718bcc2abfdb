import Verif.Spec.Hir

/-! # Conversion of regular expressions -/

set_option autoImplicit false

namespace Verif

theorem utf8Decode_some {b : ByteArray} {cs : Array Char} : b.utf8Decode? = some cs ↔ cs.toList.utf8Encode = b := by
  constructor
  · intro h
    have := ByteArray.utf8Encode_get_utf8Decode? (b := b) (h := by rw [h]; rfl)
    simpa [h] using this
  · rintro rfl
    rw [List.utf8Decode?_utf8Encode]

theorem utf8Decode_none {b : ByteArray} : b.utf8Decode? = none ↔ ¬ ∃ w : List Char, w.utf8Encode = b := by
  constructor
  · rintro h ⟨w, rfl⟩
    rw [List.utf8Decode?_utf8Encode] at h
    cases h
  · intro h
    cases hd : b.utf8Decode? with
    | none => rfl
    | some cs => exact absurd ⟨_, utf8Decode_some.mp hd⟩ h

theorem utf8Encode_inj {v w : List Char} (h : v.utf8Encode = w.utf8Encode) : v = w := by
  have h1 := List.utf8Decode?_utf8Encode (l := v)
  have h2 := List.utf8Decode?_utf8Encode (l := w)
  rw [h, h2] at h1
  have := congrArg Array.toList (Option.some.inj h1)
  simpa using this.symm

theorem chars_matches (cs w : List Char) : Pattern.SeqMatches (cs.map fun c => .char (.single c)) w ↔ w = cs := by
  induction cs generalizing w with
  | nil => simp [Pattern.SeqMatches]
  | cons c cs ih =>
    simp only [List.map_cons, Pattern.SeqMatches, Pattern.Matches, Characters.Has]
    constructor
    · rintro ⟨u, v, rfl, ⟨d, rfl, rfl⟩, h⟩
      rw [(ih v).mp h]
      rfl
    · rintro rfl
      exact ⟨[c], cs, rfl, ⟨c, rfl, rfl⟩, (ih cs).mpr rfl⟩

theorem except_bind_ok {ε α β : Type} {x : Except ε α} {f : α → Except ε β} {b : β} : (x >>= f) = .ok b ↔ ∃ a, x = .ok a ∧ f a = .ok b := by
  cases x <;> simp [bind, Except.bind]

theorem except_bind_err {ε α β : Type} {x : Except ε α} {f : α → Except ε β} {e : ε} : (x >>= f) = .error e ↔ x = .error e ∨ ∃ a, x = .ok a ∧ f a = .error e := by
  cases x <;> simp [bind, Except.bind]

theorem pow_times {sub : Hir} {p : Pattern} (h : ∀ w, p.Matches w ↔ Hir.Matches sub w) : ∀ n w, Lang.pow p.Matches n w ↔ Hir.Times sub n w := by
  intro n
  induction n with
  | zero =>
    intro w
    simp only [Lang.pow]
    constructor
    · rintro rfl
      exact .zero
    · intro h
      cases h
      rfl
  | succ n ih =>
    intro w
    simp only [Lang.pow]
    constructor
    · rintro ⟨u, v, rfl, h1, h2⟩
      exact .succ ((h u).mp h1) ((ih v).mp h2)
    · intro h'
      cases h' with
      | succ h1 h2 => exact ⟨_, _, rfl, (h _).mpr h1, (ih _).mpr h2⟩

mutual
theorem makePattern_matches : ∀ (h : Hir) (p : Pattern), makePattern h = .ok p → ∀ w, p.Matches w ↔ Hir.Matches h w
  | .empty, p, e => by simp [makePattern] at e
  | .literal bytes, p, e => by
    intro w
    simp only [makePattern] at e
    split at e
    · cases e
    · rename_i chars hd
      cases e
      have := utf8Decode_some.mp hd
      simp only [Pattern.Matches, chars_matches]
      constructor
      · rintro rfl
        exact .literal this
      · intro hm
        cases hm with
        | literal hw => exact utf8Encode_inj (hw.trans this.symm)
  | .classUnicode ranges, p, e => by
    intro w
    simp only [makePattern] at e
    cases e
    simp only [Pattern.Matches]
    constructor
    · rintro ⟨c, rfl, x, hx, hc⟩
      obtain ⟨r, hr, rfl⟩ := List.mem_map.mp hx
      exact .classUnicode hr hc.1 hc.2
    · intro hm
      cases hm with
      | classUnicode hr h1 h2 => exact ⟨_, rfl, _, List.mem_map.mpr ⟨_, hr, rfl⟩, h1, h2⟩
  | .classBytes, p, e => by simp [makePattern] at e
  | .look, p, e => by simp [makePattern] at e
  | .repetition min max greedy sub, p, e => by
    intro w
    simp only [makePattern] at e
    split at e
    · cases e
    · obtain ⟨q, hq, e⟩ := except_bind_ok.mp e
      cases e
      have ih := makePattern_matches sub q hq
      simp only [Pattern.Matches]
      constructor
      · rintro ⟨n, h1, h2, h3⟩
        exact .repetition ((pow_times ih n w).mp h3) h1 h2
      · intro hm
        cases hm with
        | repetition h h1 h2 => exact ⟨_, h1, h2, (pow_times ih _ w).mpr h⟩
  | .capture sub, p, e => by
    intro w
    simp only [makePattern] at e
    rw [makePattern_matches sub p e w]
    exact ⟨.capture, fun h => by cases h; assumption⟩
  | .concat subs, p, e => by
    intro w
    simp only [makePattern] at e
    obtain ⟨ps, hps, e⟩ := except_bind_ok.mp e
    cases e
    simp only [Pattern.Matches]
    rw [(makePatterns_matches subs ps hps).1 w]
    exact ⟨.concat, fun h => by cases h; assumption⟩
  | .alternation subs, p, e => by
    intro w
    simp only [makePattern] at e
    obtain ⟨ps, hps, e⟩ := except_bind_ok.mp e
    cases e
    simp only [Pattern.Matches]
    rw [(makePatterns_matches subs ps hps).2 w]
    exact ⟨fun ⟨_, h1, h2⟩ => .alternation h1 h2, fun h => by cases h with | alternation h1 h2 => exact ⟨_, h1, h2⟩⟩
theorem makePatterns_matches : ∀ (hs : List Hir) (ps : List Pattern), makePatterns hs = .ok ps →
    (∀ w, Pattern.SeqMatches ps w ↔ Hir.InTurn hs w) ∧ ∀ w, Pattern.AltMatches ps w ↔ ∃ h ∈ hs, Hir.Matches h w
  | [], ps, e => by
    simp only [makePatterns] at e
    cases e
    constructor
    · intro w
      simp only [Pattern.SeqMatches]
      constructor
      · rintro rfl
        exact .nil
      · intro h
        cases h
        rfl
    · intro w
      simp [Pattern.AltMatches]
  | h :: hs, ps, e => by
    simp only [makePatterns] at e
    obtain ⟨p, hp, e⟩ := except_bind_ok.mp e
    obtain ⟨qs, hq, e⟩ := except_bind_ok.mp e
    cases e
    have ih := makePattern_matches h p hp
    obtain ⟨ih1, ih2⟩ := makePatterns_matches hs qs hq
    constructor
    · intro w
      simp only [Pattern.SeqMatches]
      constructor
      · rintro ⟨u, v, rfl, h1, h2⟩
        exact .cons ((ih u).mp h1) ((ih1 v).mp h2)
      · intro hm
        cases hm with
        | cons h1 h2 => exact ⟨_, _, rfl, (ih _).mpr h1, (ih1 _).mpr h2⟩
    · intro w
      simp only [Pattern.AltMatches, List.mem_cons, exists_eq_or_imp]
      rw [ih w, ih2 w]
end

mutual
theorem makePattern_error : ∀ (h : Hir) (e : RegexError), makePattern h = .error e → ∃ x, Hir.Part x h ∧ Hir.Unsupported x e
  | .empty, e, he => by simp [makePattern] at he; subst he; exact ⟨_, .self, .empty⟩
  | .literal bytes, e, he => by
    simp only [makePattern] at he
    split at he
    · rename_i hd
      cases he
      exact ⟨_, .self, .utf8 (utf8Decode_none.mp hd)⟩
    · cases he
  | .classUnicode ranges, e, he => by simp [makePattern] at he
  | .classBytes, e, he => by simp [makePattern] at he; subst he; exact ⟨_, .self, .bytes⟩
  | .look, e, he => by simp [makePattern] at he; subst he; exact ⟨_, .self, .look⟩
  | .repetition min max greedy sub, e, he => by
    simp only [makePattern] at he
    split at he
    · rename_i hg
      cases he
      rw [hg]
      exact ⟨_, .self, .lazy⟩
    · rcases except_bind_err.mp he with he | ⟨a, -, he⟩
      · obtain ⟨x, h1, h2⟩ := makePattern_error sub e he
        exact ⟨x, .repetition h1, h2⟩
      · cases he
  | .capture sub, e, he => by
    simp only [makePattern] at he
    obtain ⟨x, h1, h2⟩ := makePattern_error sub e he
    exact ⟨x, .capture h1, h2⟩
  | .concat subs, e, he => by
    simp only [makePattern] at he
    rcases except_bind_err.mp he with he | ⟨a, -, he⟩
    · obtain ⟨h, hm, x, h1, h2⟩ := makePatterns_error subs e he
      exact ⟨x, .concat hm h1, h2⟩
    · cases he
  | .alternation subs, e, he => by
    simp only [makePattern] at he
    rcases except_bind_err.mp he with he | ⟨a, -, he⟩
    · obtain ⟨h, hm, x, h1, h2⟩ := makePatterns_error subs e he
      exact ⟨x, .alternation hm h1, h2⟩
    · cases he
theorem makePatterns_error : ∀ (hs : List Hir) (e : RegexError), makePatterns hs = .error e → ∃ h ∈ hs, ∃ x, Hir.Part x h ∧ Hir.Unsupported x e
  | [], e, he => by simp [makePatterns] at he
  | h :: hs, e, he => by
    simp only [makePatterns] at he
    rcases except_bind_err.mp he with he | ⟨a, -, he⟩
    · obtain ⟨x, h1, h2⟩ := makePattern_error h e he
      exact ⟨h, List.mem_cons_self, x, h1, h2⟩
    · rcases except_bind_err.mp he with he | ⟨a, -, he⟩
      · obtain ⟨h', hm, x, h1, h2⟩ := makePatterns_error hs e he
        exact ⟨h', List.mem_cons_of_mem _ hm, x, h1, h2⟩
      · cases he
end

theorem makePatterns_mem : ∀ {hs : List Hir} {ps : List Pattern}, makePatterns hs = .ok ps → ∀ h ∈ hs, ∃ p ∈ ps, makePattern h = .ok p := by
  intro hs
  induction hs with
  | nil => intro ps _ h hm; cases hm
  | cons x hs ih =>
    intro ps e h hm
    simp only [makePatterns] at e
    obtain ⟨p, hp, e⟩ := except_bind_ok.mp e
    obtain ⟨qs, hq, e⟩ := except_bind_ok.mp e
    cases e
    rcases List.mem_cons.mp hm with rfl | hm
    · exact ⟨p, List.mem_cons_self, hp⟩
    · obtain ⟨q, h1, h2⟩ := ih hq h hm
      exact ⟨q, List.mem_cons_of_mem _ h1, h2⟩

theorem makePattern_part {x h : Hir} (hp : Hir.Part x h) : ∀ p, makePattern h = .ok p → ∃ q, makePattern x = .ok q := by
  induction hp with
  | self => intro p e; exact ⟨p, e⟩
  | repetition _ ih =>
    intro p e
    simp only [makePattern] at e
    split at e
    · cases e
    · obtain ⟨q, hq, -⟩ := except_bind_ok.mp e
      exact ih q hq
  | capture _ ih =>
    intro p e
    simp only [makePattern] at e
    exact ih p e
  | concat hm _ ih =>
    intro p e
    simp only [makePattern] at e
    obtain ⟨ps, hps, -⟩ := except_bind_ok.mp e
    obtain ⟨q, -, hq⟩ := makePatterns_mem hps _ hm
    exact ih q hq
  | alternation hm _ ih =>
    intro p e
    simp only [makePattern] at e
    obtain ⟨ps, hps, -⟩ := except_bind_ok.mp e
    obtain ⟨q, -, hq⟩ := makePatterns_mem hps _ hm
    exact ih q hq

theorem unsupported_error {x : Hir} {e : RegexError} (h : Hir.Unsupported x e) : makePattern x = .error e := by
  cases h with
  | empty => rfl
  | utf8 h => simp only [makePattern, utf8Decode_none.mpr h]
  | bytes => rfl
  | look => rfl
  | lazy => simp [makePattern]

mutual
theorem makePattern_noEmpty : ∀ (h : Hir) (p : Pattern), makePattern h = .ok p → h.NoEmptyParts → p.NoEmptySeq
  | .empty, p, e, _ => by simp [makePattern] at e
  | .literal bytes, p, e, hn => by
    simp only [makePattern] at e
    split at e
    · cases e
    · rename_i chars hd
      cases e
      simp only [Pattern.NoEmptySeq]
      have := utf8Decode_some.mp hd
      constructor
      · intro h
        rw [List.map_eq_nil_iff] at h
        rw [h] at this
        exact (hn _ .self).1 (by rw [← this]; rfl)
      · generalize chars.toList = l
        induction l with
        | nil => trivial
        | cons c l ih => exact ⟨trivial, ih⟩
  | .classUnicode ranges, p, e, _ => by simp only [makePattern] at e; cases e; trivial
  | .classBytes, p, e, _ => by simp [makePattern] at e
  | .look, p, e, _ => by simp [makePattern] at e
  | .repetition min max greedy sub, p, e, hn => by
    simp only [makePattern] at e
    split at e
    · cases e
    · obtain ⟨q, hq, e⟩ := except_bind_ok.mp e
      cases e
      exact makePattern_noEmpty sub q hq (fun x hx => hn x (.repetition hx))
  | .capture sub, p, e, hn => by
    simp only [makePattern] at e
    exact makePattern_noEmpty sub p e (fun x hx => hn x (.capture hx))
  | .concat subs, p, e, hn => by
    simp only [makePattern] at e
    obtain ⟨ps, hps, e⟩ := except_bind_ok.mp e
    cases e
    have := makePatterns_noEmpty subs ps hps (fun h hm x hx => hn x (.concat hm hx))
    refine ⟨fun h => ?_, this.1⟩
    have h0 := this.2 h
    subst h0
    exact (hn _ .self).2 rfl
  | .alternation subs, p, e, hn => by
    simp only [makePattern] at e
    obtain ⟨ps, hps, e⟩ := except_bind_ok.mp e
    cases e
    exact (makePatterns_noEmpty subs ps hps (fun h hm x hx => hn x (.alternation hm hx))).1
theorem makePatterns_noEmpty : ∀ (hs : List Hir) (ps : List Pattern), makePatterns hs = .ok ps → (∀ h ∈ hs, h.NoEmptyParts) →
    Pattern.AllNoEmptySeq ps ∧ (ps = [] → hs = [])
  | [], ps, e, _ => by
    simp only [makePatterns] at e
    cases e
    exact ⟨trivial, fun _ => rfl⟩
  | h :: hs, ps, e, hn => by
    simp only [makePatterns] at e
    obtain ⟨p, hp, e⟩ := except_bind_ok.mp e
    obtain ⟨qs, hq, e⟩ := except_bind_ok.mp e
    cases e
    exact ⟨⟨makePattern_noEmpty h p hp (hn h List.mem_cons_self), (makePatterns_noEmpty hs qs hq (fun x hx => hn x (List.mem_cons_of_mem _ hx))).1⟩,
      fun h => by cases h⟩
end

mutual
theorem makePattern_tight : ∀ (h : Hir) (p : Pattern), makePattern h = .ok p →
    (p.HasTightCount ↔ ∃ min m greedy sub, m ≤ min ∧ Hir.Part (.repetition min (some m) greedy sub) h)
  | .empty, p, e => by simp [makePattern] at e
  | .literal bytes, p, e => by
    simp only [makePattern] at e
    split at e
    · cases e
    · rename_i chars hd
      cases e
      simp only [Pattern.HasTightCount]
      constructor
      · intro h
        exfalso
        revert h
        generalize chars.toList = l
        induction l with
        | nil => exact id
        | cons c l ih => exact fun h => h.elim id ih
      · rintro ⟨_, _, _, _, _, hp⟩
        cases hp
  | .classUnicode ranges, p, e => by
    simp only [makePattern] at e
    cases e
    simp only [Pattern.HasTightCount, false_iff]
    rintro ⟨_, _, _, _, _, hp⟩
    cases hp
  | .classBytes, p, e => by simp [makePattern] at e
  | .look, p, e => by simp [makePattern] at e
  | .repetition min max greedy sub, p, e => by
    simp only [makePattern] at e
    split at e
    · cases e
    · obtain ⟨q, hq, e⟩ := except_bind_ok.mp e
      cases e
      simp only [Pattern.HasTightCount]
      rw [makePattern_tight sub q hq]
      constructor
      · rintro (⟨m, rfl, hm⟩ | ⟨a, m, g, s, h1, h2⟩)
        · exact ⟨_, _, _, _, hm, .self⟩
        · exact ⟨a, m, g, s, h1, .repetition h2⟩
      · rintro ⟨a, m, g, s, h1, h2⟩
        cases h2 with
        | self => exact .inl ⟨m, rfl, h1⟩
        | repetition h2 => exact .inr ⟨a, m, g, s, h1, h2⟩
  | .capture sub, p, e => by
    simp only [makePattern] at e
    rw [makePattern_tight sub p e]
    constructor
    · rintro ⟨a, m, g, s, h1, h2⟩
      exact ⟨a, m, g, s, h1, .capture h2⟩
    · rintro ⟨a, m, g, s, h1, h2⟩
      cases h2 with
      | capture h2 => exact ⟨a, m, g, s, h1, h2⟩
  | .concat subs, p, e => by
    simp only [makePattern] at e
    obtain ⟨ps, hps, e⟩ := except_bind_ok.mp e
    cases e
    simp only [Pattern.HasTightCount]
    rw [makePatterns_tight subs ps hps]
    constructor
    · rintro ⟨h, hm, a, m, g, s, h1, h2⟩
      exact ⟨a, m, g, s, h1, .concat hm h2⟩
    · rintro ⟨a, m, g, s, h1, h2⟩
      cases h2 with
      | concat hm h2 => exact ⟨_, hm, a, m, g, s, h1, h2⟩
  | .alternation subs, p, e => by
    simp only [makePattern] at e
    obtain ⟨ps, hps, e⟩ := except_bind_ok.mp e
    cases e
    simp only [Pattern.HasTightCount]
    rw [makePatterns_tight subs ps hps]
    constructor
    · rintro ⟨h, hm, a, m, g, s, h1, h2⟩
      exact ⟨a, m, g, s, h1, .alternation hm h2⟩
    · rintro ⟨a, m, g, s, h1, h2⟩
      cases h2 with
      | alternation hm h2 => exact ⟨_, hm, a, m, g, s, h1, h2⟩
theorem makePatterns_tight : ∀ (hs : List Hir) (ps : List Pattern), makePatterns hs = .ok ps →
    (Pattern.SomeTightCount ps ↔ ∃ h ∈ hs, ∃ min m greedy sub, m ≤ min ∧ Hir.Part (.repetition min (some m) greedy sub) h)
  | [], ps, e => by
    simp only [makePatterns] at e
    cases e
    simp [Pattern.SomeTightCount]
  | h :: hs, ps, e => by
    simp only [makePatterns] at e
    obtain ⟨p, hp, e⟩ := except_bind_ok.mp e
    obtain ⟨qs, hq, e⟩ := except_bind_ok.mp e
    cases e
    simp only [Pattern.SomeTightCount, List.mem_cons, exists_eq_or_imp]
    rw [makePattern_tight h p hp, makePatterns_tight hs qs hq]
end

end Verif
