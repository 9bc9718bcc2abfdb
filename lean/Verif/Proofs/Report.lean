import Verif.Spec.Report

/-! # Lemmas about error reports -/

set_option autoImplicit false

namespace Verif

theorem plain_nil : plain [] = [] := rfl

theorem plain_append {a : List Char} (h : NoEscape a) (b : List Char) : plain (a ++ b) = a ++ plain b := by
  induction a with
  | nil => rfl
  | cons c cs ih =>
    have h1 : c ≠ '\x1b' := fun hc => h (by rw [hc]; exact List.mem_cons_self)
    have h2 : NoEscape cs := fun hm => h (List.mem_cons_of_mem _ hm)
    have := ih h2
    simp only [plain, List.cons_append, plainFrom] at this ⊢
    rw [if_neg (by simp), if_neg h1, this]

theorem plain_self {a : List Char} (h : NoEscape a) : plain a = a := by
  have := plain_append h []
  simpa [plain_nil] using this

/-- a text with balanced codes in front of another -/
def Balanced (a : List Char) : Prop := ∀ b, plain (a ++ b) = plain a ++ plain b

theorem Balanced.of_noEscape {a : List Char} (h : NoEscape a) : Balanced a := fun b => by rw [plain_append h, plain_self h]

theorem Balanced.append {a b : List Char} (ha : Balanced a) (hb : Balanced b) : Balanced (a ++ b) := fun c => by
  rw [List.append_assoc, ha, hb, ha, List.append_assoc]

theorem Balanced.nil : Balanced [] := fun b => by simp [plain_nil]

theorem Balanced.flatten {l : List (List Char)} (h : ∀ a ∈ l, Balanced a) : Balanced l.flatten ∧ plain l.flatten = (l.map plain).flatten := by
  induction l with
  | nil => exact ⟨.nil, rfl⟩
  | cons a l ih =>
    obtain ⟨h1, h2⟩ := ih fun x hx => h x (List.mem_cons_of_mem _ hx)
    have ha := h a List.mem_cons_self
    exact ⟨ha.append h1, by rw [List.flatten_cons, ha, h2]; rfl⟩

theorem bold_code (b : List Char) : plain ("\x1b[1m".toList ++ b) = plain b := rfl
theorem bold_end (b : List Char) : plain ("\x1b[0m".toList ++ b) = plain b := rfl
theorem blue_code (b : List Char) : plain ("\x1b[34m".toList ++ b) = plain b := rfl
theorem red_code (b : List Char) : plain ("\x1b[91m".toList ++ b) = plain b := rfl
theorem color_end (b : List Char) : plain ("\x1b[39m".toList ++ b) = plain b := rfl

theorem plain_bold {s : List Char} (h : Balanced s) : Balanced (bold s) ∧ plain (bold s) = plain s := by
  have key : ∀ b, plain (bold s ++ b) = plain s ++ plain b := fun b => by
    unfold bold
    rw [List.append_assoc, List.append_assoc, bold_code, h, bold_end]
  have h1 : plain (bold s) = plain s := by simpa [plain_nil] using key []
  exact ⟨fun b => by rw [key, h1], h1⟩

theorem plain_blue {s : List Char} (h : Balanced s) : Balanced (blue s) ∧ plain (blue s) = plain s := by
  have key : ∀ b, plain (blue s ++ b) = plain s ++ plain b := fun b => by
    unfold blue
    rw [List.append_assoc, List.append_assoc, blue_code, h, color_end]
  have h1 : plain (blue s) = plain s := by simpa [plain_nil] using key []
  exact ⟨fun b => by rw [key, h1], h1⟩

theorem plain_red {s : List Char} (h : Balanced s) : Balanced (brightRed s) ∧ plain (brightRed s) = plain s := by
  have key : ∀ b, plain (brightRed s ++ b) = plain s ++ plain b := fun b => by
    unfold brightRed
    rw [List.append_assoc, List.append_assoc, red_code, h, color_end]
  have h1 : plain (brightRed s) = plain s := by simpa [plain_nil] using key []
  exact ⟨fun b => by rw [key, h1], h1⟩

/-- `Shown a s`: the text `a` has balanced codes and shows `s` -/
structure Shown (a s : List Char) : Prop where
  bal : Balanced a
  eq : plain a = s

theorem Shown.append {a b s t : List Char} (ha : Shown a s) (hb : Shown b t) : Shown (a ++ b) (s ++ t) := ⟨ha.bal.append hb.bal, by rw [ha.bal, ha.eq, hb.eq]⟩
theorem Shown.self {a : List Char} (h : NoEscape a) : Shown a a := ⟨.of_noEscape h, plain_self h⟩
theorem Shown.bold {a s : List Char} (h : Shown a s) : Shown (bold a) s := ⟨(plain_bold h.bal).1, by rw [(plain_bold h.bal).2, h.eq]⟩
theorem Shown.blue {a s : List Char} (h : Shown a s) : Shown (blue a) s := ⟨(plain_blue h.bal).1, by rw [(plain_blue h.bal).2, h.eq]⟩
theorem Shown.red {a s : List Char} (h : Shown a s) : Shown (brightRed a) s := ⟨(plain_red h.bal).1, by rw [(plain_red h.bal).2, h.eq]⟩

theorem decimal_noEscape (n : Nat) : NoEscape (decimal n) ∧ '\n' ∉ decimal n := by
  constructor
  all_goals
    intro h
    have := Nat.isDigit_of_mem_toDigits (by decide) (by decide) h
    revert this
    decide

theorem Shown.intercalate {as ss : List (List Char)} (h : List.Forall₂ Shown as ss) : Shown (List.intercalate ['\n'] as) (List.intercalate ['\n'] ss) := by
  induction h with
  | nil => exact .self (by simp [NoEscape])
  | @cons a s as ss h1 h2 ih =>
    cases h2 with
    | nil => simpa [List.intercalate] using h1
    | @cons b t as ss h3 h4 =>
      have e : ∀ (x y : List Char) (l : List (List Char)), List.intercalate ['\n'] (x :: y :: l) = x ++ ['\n'] ++ List.intercalate ['\n'] (y :: l) := by
        intro x y l; simp [List.intercalate, List.intersperse]
      rw [e, e]
      exact (h1.append (.self (by simp [NoEscape]))).append ih

/-! ## Lines -/

theorem strLinesFrom_line {l : List Char} (h : '\n' ∉ l) (cur s : List Char) : strLinesFrom cur (l ++ '\n' :: s) = stripCr (cur ++ l) :: strLines s := by
  induction l generalizing cur with
  | nil => simp [strLinesFrom, strLines]
  | cons c cs ih =>
    have h1 : c ≠ '\n' := fun hc => h (by rw [hc]; exact List.mem_cons_self)
    have h2 : '\n' ∉ cs := fun hm => h (List.mem_cons_of_mem _ hm)
    rw [List.cons_append, strLinesFrom, if_neg h1, ih h2]
    simp

theorem strLines_line {l : List Char} (h : '\n' ∉ l) (s : List Char) : strLines (l ++ '\n' :: s) = stripCr l :: strLines s := strLinesFrom_line h [] s

theorem strLinesFrom_last {l : List Char} (h : '\n' ∉ l) (cur : List Char) (hne : cur ++ l ≠ []) : strLinesFrom cur l = [cur ++ l] := by
  induction l generalizing cur with
  | nil => simp at hne; simp [strLinesFrom, hne]
  | cons c cs ih =>
    have h1 : c ≠ '\n' := fun hc => h (by rw [hc]; exact List.mem_cons_self)
    have h2 : '\n' ∉ cs := fun hm => h (List.mem_cons_of_mem _ hm)
    rw [strLinesFrom, if_neg h1, ih h2 _ (by simp)]
    simp

theorem strLines_last {l : List Char} (h : '\n' ∉ l) (hne : l ≠ []) : strLines l = [l] := strLinesFrom_last h [] (by simpa using hne)

theorem stripCr_eq (l : List Char) : stripCr l = if l.getLast? = some '\r' then l.dropLast else l := by
  induction l with
  | nil => rfl
  | cons c cs ih =>
    cases cs with
    | nil => simp only [stripCr, List.getLast?_singleton, List.dropLast_singleton, Option.some.injEq]
    | cons d cs =>
      rw [stripCr, ih, List.getLast?_cons_cons]
      split <;> simp

theorem stripCr_other {l : List Char} {c : Char} (hc : c ≠ '\r') : stripCr (l ++ [c]) = l ++ [c] := by
  rw [stripCr_eq, List.getLast?_append]
  simp [hc]

theorem lines_parts (parts : List (List Char)) (hne : parts ≠ []) (h : ∀ p ∈ parts, '\n' ∉ p) (s : List Char) :
    strLines (List.intercalate ['\n'] parts ++ '\n' :: s) = parts.map stripCr ++ strLines s := by
  induction parts with
  | nil => exact absurd rfl hne
  | cons p ps ih =>
    cases ps with
    | nil => simpa [List.intercalate] using strLines_line (h p (by simp)) s
    | cons q qs =>
      have e : List.intercalate ['\n'] (p :: q :: qs) = p ++ '\n' :: List.intercalate ['\n'] (q :: qs) := by simp [List.intercalate, List.intersperse]
      rw [e, List.append_assoc, List.cons_append, strLines_line (h p (by simp)), ih (by simp) fun x hx => h x (List.mem_cons_of_mem _ hx)]
      rfl

theorem parts_exist (text : List Char) : ∃ parts, parts ≠ [] ∧ text = List.intercalate ['\n'] parts ∧ ∀ p ∈ parts, '\n' ∉ p := by
  induction text with
  | nil => exact ⟨[[]], by simp, by simp [List.intercalate], by simp⟩
  | cons c cs ih =>
    obtain ⟨parts, h1, h2, h3⟩ := ih
    by_cases hc : c = '\n'
    · refine ⟨[] :: parts, by simp, ?_, ?_⟩
      · cases parts with
        | nil => exact absurd rfl h1
        | cons p ps => rw [hc, h2]; simp [List.intercalate, List.intersperse]
      · intro p hp
        rcases List.mem_cons.mp hp with rfl | hp
        · simp
        · exact h3 p hp
    · cases parts with
      | nil => exact absurd rfl h1
      | cons p ps =>
        refine ⟨(c :: p) :: ps, by simp, ?_, ?_⟩
        · rw [h2]
          cases ps <;> simp [List.intercalate, List.intersperse]
        · intro x hx
          rcases List.mem_cons.mp hx with rfl | hx
          · have := h3 p List.mem_cons_self
            simp [this, Ne.symm hc]
          · exact h3 x (List.mem_cons_of_mem _ hx)

/-- the lines `str::lines` gives for the quoted text in front of other lines are its lines -/
theorem lines_quoted (text : List Char) : ∃ ls, LinesOf text ls ∧ (∀ l ∈ ls, ∀ c ∈ l, c ∈ text) ∧ ∀ s, strLines (text ++ '\n' :: s) = ls ++ strLines s := by
  obtain ⟨parts, h1, h2, h3⟩ := parts_exist text
  refine ⟨parts.map stripCr, ⟨parts, h1, h2, h3, ?_⟩, ?_, fun s => by rw [h2]; exact lines_parts parts h1 h3 s⟩
  · exact List.map_congr_left fun p _ => stripCr_eq p
  · intro l hl c hc
    obtain ⟨p, hp, rfl⟩ := List.mem_map.mp hl
    have hcp : c ∈ p := by
      rw [stripCr_eq] at hc
      split at hc
      · exact List.dropLast_subset _ hc
      · exact hc
    have hsub : ∀ ps : List (List Char), p ∈ ps → c ∈ List.intercalate ['\n'] ps := by
      intro ps
      induction ps with
      | nil => intro h; cases h
      | cons q qs ih =>
        intro hq
        cases qs with
        | nil => rcases List.mem_cons.mp hq with rfl | h
                 · simpa [List.intercalate] using hcp
                 · cases h
        | cons r rs =>
          have e : List.intercalate ['\n'] (q :: r :: rs) = q ++ '\n' :: List.intercalate ['\n'] (r :: rs) := by simp [List.intercalate, List.intersperse]
          rw [e]
          rcases List.mem_cons.mp hq with rfl | h
          · simp [hcp]
          · simp [ih h]
    rw [h2]
    exact hsub parts hp

/-- lines of coloured texts -/
theorem strLines_rest {line : List Char} (init : List Char) (c : Char) (hl : line = init ++ [c]) (hc : c ≠ '\r') (hn : '\n' ∉ line) (s : List Char) :
    strLines (line ++ '\n' :: s) = line :: strLines s := by
  rw [strLines_line hn, hl, stripCr_other hc]

/-! ## Sections -/

theorem bold_snoc (s : List Char) : bold s = ("\x1b[1m".toList ++ s ++ "\x1b[0".toList) ++ ['m'] := by simp [bold]

theorem noNewline_bold {s : List Char} (h : '\n' ∉ s) : '\n' ∉ bold s := by simp [bold, h]
theorem noNewline_red {s : List Char} (h : '\n' ∉ s) : '\n' ∉ brightRed s := by simp [brightRed, h]

theorem section_shown {l : Location} {contents : List Char} {told : List (List Char)} (hf : NoEscape l.file) (ht : NoEscape l.text) (h : List.Forall₂ Shown (strLines contents) told) :
    ∃ ls, ls ≠ [] ∧ SectionLines l told ls ∧ Shown (writeSection l contents) (List.intercalate ['\n'] ls) := by
  obtain ⟨quoted, h1, h2, h3⟩ := lines_quoted l.text
  refine ⟨_, by simp, .mk h1, ?_⟩
  have hline : strLines (l.text ++ ['\n'] ++ bold (brightRed (List.replicate (byteLen l.text) '~')) ++ "\n\n".toList ++ contents) =
      quoted ++ [bold (brightRed (List.replicate (byteLen l.text) '~')), []] ++ strLines contents := by
    have e : l.text ++ ['\n'] ++ bold (brightRed (List.replicate (byteLen l.text) '~')) ++ "\n\n".toList ++ contents =
        l.text ++ '\n' :: (bold (brightRed (List.replicate (byteLen l.text) '~')) ++ '\n' :: ([] ++ '\n' :: contents)) := by simp
    rw [e, h3, strLines_rest _ 'm' (bold_snoc _) (by decide) (noNewline_bold (noNewline_red (by simp [List.mem_replicate]))), strLines_line (by simp)]
    simp [stripCr]
  have hbar : Shown ("  ".toList ++ bold (blue ['|']) ++ "  ".toList) "  |  ".toList := by
    have : "  |  ".toList = "  ".toList ++ ['|'] ++ "  ".toList := rfl
    rw [this]
    exact ((Shown.self (by simp [NoEscape])).append (Shown.bold (.blue (.self (by simp [NoEscape]))))).append (.self (by simp [NoEscape]))
  have hhead : Shown ([' '] ++ bold (blue "-->".toList) ++ [' '] ++ l.file ++ [':'] ++ decimal l.pos.line ++ [':'] ++ decimal l.pos.col)
      (" --> ".toList ++ l.file ++ [':'] ++ decimal l.pos.line ++ [':'] ++ decimal l.pos.col) := by
    have : " --> ".toList = [' '] ++ "-->".toList ++ [' '] := rfl
    rw [this]
    exact ((((((Shown.self (by simp [NoEscape])).append (Shown.bold (.blue (.self (by simp [NoEscape]))))).append (.self (by simp [NoEscape]))).append (.self hf)).append
      (.self (by simp [NoEscape]))).append (.self (decimal_noEscape _).1)).append (.self (by simp [NoEscape])) |>.append (.self (decimal_noEscape _).1)
  have hq : List.Forall₂ Shown ([[]] ++ quoted ++ [bold (brightRed (List.replicate (byteLen l.text) '~')), []] ++ strLines contents ++ [[]])
      ([[]] ++ quoted ++ [List.replicate (byteLen l.text) '~', []] ++ told ++ [[]]) := by
    have n : Shown [] [] := .self (by simp [NoEscape])
    have hqq : List.Forall₂ Shown quoted quoted := by
      refine List.forall₂_same.mpr fun x hx => .self fun hm => ht (h2 x hx _ hm)
    refine List.rel_append (List.rel_append (List.rel_append (List.rel_append (.cons n .nil) hqq) (.cons (.bold (.red (.self ?_))) (.cons n .nil))) h) (.cons n .nil)
    simp [NoEscape, List.mem_replicate]
  unfold writeSection
  rw [hline]
  have e : ∀ (x : List Char) (y : List Char) (l : List (List Char)), List.intercalate ['\n'] (x :: y :: l) = x ++ (['\n'] ++ List.intercalate ['\n'] (y :: l)) := by
    intro x y l; simp [List.intercalate, List.intersperse]
  have hmap : List.Forall₂ Shown
      (([] :: (quoted ++ [bold (brightRed (List.replicate (byteLen l.text) '~')), []] ++ strLines contents ++ [[]])).map fun line => "  ".toList ++ bold (blue ['|']) ++ "  ".toList ++ line)
      (([[]] ++ quoted ++ [List.replicate (byteLen l.text) '~', []] ++ told ++ [[]]).map ("  |  ".toList ++ ·)) := by
    rw [List.forall₂_map_left_iff, List.forall₂_map_right_iff]
    have : ([] :: (quoted ++ [bold (brightRed (List.replicate (byteLen l.text) '~')), []] ++ strLines contents ++ [[]])) =
        [[]] ++ quoted ++ [bold (brightRed (List.replicate (byteLen l.text) '~')), []] ++ strLines contents ++ [[]] := by simp
    rw [this]
    exact hq.imp fun a s has => hbar.append has
  have e2 : List.map ("  |  ".toList ++ ·) ([[]] ++ quoted ++ [List.replicate (byteLen l.text) '~', []] ++ told ++ [[]]) =
      ("  |  ".toList ++ []) :: List.map ("  |  ".toList ++ ·) (quoted ++ [List.replicate (byteLen l.text) '~', []] ++ told ++ [[]]) := by simp
  rw [e2] at hmap ⊢
  rw [e]
  have := (hhead.append (.self (a := ['\n']) (by simp [NoEscape]))).append (Shown.intercalate hmap)
  simpa only [List.append_assoc] using this

/-! ## Reports -/

theorem intercalate_append (a b : List (List Char)) (ha : a ≠ []) (hb : b ≠ []) :
    List.intercalate ['\n'] (a ++ b) = List.intercalate ['\n'] a ++ ['\n'] ++ List.intercalate ['\n'] b := by
  induction a with
  | nil => exact absurd rfl ha
  | cons x xs ih =>
    cases xs with
    | nil =>
      cases b with
      | nil => exact absurd rfl hb
      | cons y ys => simp [List.intercalate, List.intersperse]
    | cons z zs =>
      have e : ∀ l, List.intercalate ['\n'] (x :: z :: l) = x ++ ['\n'] ++ List.intercalate ['\n'] (z :: l) := by
        intro l; simp [List.intercalate, List.intersperse]
      have := ih (by simp)
      simp only [List.cons_append] at this ⊢
      rw [e, e, this]
      simp only [List.append_assoc]

theorem sections_shown {ss : List (List Char)} {P : List Char → List (List Char) → Prop} (hne : ss ≠ [])
    (h : ∀ s ∈ ss, ∃ ls, ls ≠ [] ∧ P s ls ∧ Shown s (List.intercalate ['\n'] ls)) :
    ∃ lss : List (List (List Char)), List.Forall₂ P ss lss ∧ lss.flatten ≠ [] ∧ Shown (writeSections ss) (List.intercalate ['\n'] lss.flatten) := by
  induction ss with
  | nil => exact absurd rfl hne
  | cons s ss ih =>
    obtain ⟨ls, h1, h2, h3⟩ := h s List.mem_cons_self
    cases ss with
    | nil => exact ⟨[ls], .cons h2 .nil, by simpa using h1, by simpa [writeSections] using h3⟩
    | cons t ts =>
      obtain ⟨lss, i1, i2, i3⟩ := ih (by simp) fun x hx => h x (List.mem_cons_of_mem _ hx)
      refine ⟨ls :: lss, .cons h2 i1, by simp [h1], ?_⟩
      rw [List.flatten_cons, intercalate_append _ _ h1 i2, writeSections]
      exact (h3.append (.self (by simp [NoEscape]))).append i3

theorem told_state (q : Nat) : Shown ("In state ".toList ++ bold (decimal q) ++ [':']) ("In state ".toList ++ decimal q ++ [':']) :=
  ((Shown.self (by simp [NoEscape])).append (.bold (.self (decimal_noEscape q).1))).append (.self (by simp [NoEscape]))

theorem told_name {s : List Char} (h : NoEscape s) : Shown ('\t' :: bold s) ('\t' :: s) := (Shown.self (a := ['\t']) (by simp [NoEscape])).append (.bold (.self h))

theorem state_line (q : Nat) (s : List Char) : strLines ("In state ".toList ++ bold (decimal q) ++ [':'] ++ '\n' :: s) = ("In state ".toList ++ bold (decimal q) ++ [':']) :: strLines s :=
  strLines_rest _ ':' rfl (by decide) (by simp [bold, (decimal_noEscape q).2]) s

theorem name_line {n : List Char} (h : '\n' ∉ n) (s : List Char) : strLines ('\t' :: bold n ++ '\n' :: s) = ('\t' :: bold n) :: strLines s :=
  strLines_rest ('\t' :: ("\x1b[1m".toList ++ n ++ "\x1b[0".toList)) 'm' (by rw [bold_snoc]; rfl) (by decide) (by simp [bold, h]) s

theorem name_last {n : List Char} (h : '\n' ∉ n) : strLines ('\t' :: bold n) = ['\t' :: bold n] := strLines_last (by simp [bold, h]) (by simp)

theorem told_shift {q : Nat} {name text : List Char} (h1 : NoEscape name ∧ '\n' ∉ name) (h2 : NoEscape text ∧ '\n' ∉ text) :
    List.Forall₂ Shown (strLines ("In state ".toList ++ bold (decimal q) ++ ":\nCould shift token\n\t".toList ++ bold name ++ "\nOr reduce item\n\t".toList ++ bold text))
      ["In state ".toList ++ decimal q ++ [':'], "Could shift token".toList, '\t' :: name, "Or reduce item".toList, '\t' :: text] := by
  have e : "In state ".toList ++ bold (decimal q) ++ ":\nCould shift token\n\t".toList ++ bold name ++ "\nOr reduce item\n\t".toList ++ bold text =
      "In state ".toList ++ bold (decimal q) ++ [':'] ++ '\n' :: ("Could shift token".toList ++ '\n' :: ('\t' :: bold name ++ '\n' :: ("Or reduce item".toList ++ '\n' :: ('\t' :: bold text)))) := by simp
  rw [e, state_line, strLines_rest (line := "Could shift token".toList) "Could shift toke".toList 'n' rfl (by decide) (by simp), name_line h1.2, strLines_rest (line := "Or reduce item".toList) "Or reduce ite".toList 'm' rfl (by decide) (by simp), name_last h2.2]
  exact .cons (told_state q) (.cons (.self (by simp [NoEscape])) (.cons (told_name h1.1) (.cons (.self (by simp [NoEscape])) (.cons (told_name h2.1) .nil))))

theorem told_reduce {q : Nat} {text : List Char} (h : NoEscape text ∧ '\n' ∉ text) :
    List.Forall₂ Shown (strLines ("In state ".toList ++ bold (decimal q) ++ ":\nCould reduce this item:\n\t".toList ++ bold text))
      ["In state ".toList ++ decimal q ++ [':'], "Could reduce this item:".toList, '\t' :: text] := by
  have e : "In state ".toList ++ bold (decimal q) ++ ":\nCould reduce this item:\n\t".toList ++ bold text =
      "In state ".toList ++ bold (decimal q) ++ [':'] ++ '\n' :: ("Could reduce this item:".toList ++ '\n' :: ('\t' :: bold text)) := by simp
  rw [e, state_line, strLines_rest (line := "Could reduce this item:".toList) "Could reduce this item".toList ':' rfl (by decide) (by simp), name_last h.2]
  exact .cons (told_state q) (.cons (.self (by simp [NoEscape])) (.cons (told_name h.1) .nil))

theorem told_token {text : List Char} (h : NoEscape text ∧ '\n' ∉ text) :
    List.Forall₂ Shown (strLines ("Token has identical precedence:\n\t".toList ++ bold text)) ["Token has identical precedence:".toList, '\t' :: text] := by
  have e : "Token has identical precedence:\n\t".toList ++ bold text = "Token has identical precedence:".toList ++ '\n' :: ('\t' :: bold text) := by simp
  rw [e, strLines_rest (line := "Token has identical precedence:".toList) "Token has identical precedence".toList ':' rfl (by decide) (by simp), name_last h.2]
  exact .cons (.self (by simp [NoEscape])) (.cons (told_name h.1) .nil)

theorem display_shown {reason : List Char} {r : Report} (h : r.Printable reason) :
    ∃ ls, ReportLines reason r ls ∧ ls ≠ [] ∧ Shown (r.display reason) (List.intercalate ['\n'] ls) := by
  have herr : ∀ (msg : List Char) (ls : List (List Char)) (body : List Char), NoEscape msg → ls ≠ [] → Shown body (List.intercalate ['\n'] ls) →
      Shown (bold (brightRed "error".toList) ++ ": ".toList ++ msg ++ ['\n'] ++ body) (List.intercalate ['\n'] (("error: ".toList ++ msg) :: ls)) := by
    intro msg ls body h1 h2 h3
    have := ((((Shown.self (a := "error".toList) (by simp [NoEscape])).red.bold.append (.self (a := ": ".toList) (by simp [NoEscape]))).append (.self h1)).append
      (.self (a := ['\n']) (by simp [NoEscape]))).append h3
    rw [show ("error: ".toList ++ msg) :: ls = [("error: ".toList ++ msg)] ++ ls from rfl, intercalate_append _ _ (by simp) h2]
    rw [show List.intercalate ['\n'] ["error: ".toList ++ msg] = "error".toList ++ ": ".toList ++ msg by simp [List.intercalate]]
    exact this
  have many : ∀ (xs : List (Location × List Char)) (f : List Char → List Char) (told : List Char → List (List Char)), xs ≠ [] →
      (∀ x ∈ xs, NoEscape x.1.file ∧ NoEscape x.1.text ∧ List.Forall₂ Shown (strLines (f x.2)) (told x.2)) →
      ∃ lss : List (List (List Char)), List.Forall₂ (fun x ls => SectionLines x.1 (told x.2) ls) xs lss ∧ lss.flatten ≠ [] ∧
        Shown (writeSections (xs.map fun x => writeSection x.1 (f x.2))) (List.intercalate ['\n'] lss.flatten) := by
    intro xs f told
    induction xs with
    | nil => intro h; exact absurd rfl h
    | cons x xs ih =>
      intro _ hx
      obtain ⟨h1, h2, h3⟩ := hx x List.mem_cons_self
      obtain ⟨ls, l1, l2, l3⟩ := section_shown h1 h2 h3
      cases xs with
      | nil => exact ⟨[ls], .cons l2 .nil, by simpa using l1, by simpa [writeSections] using l3⟩
      | cons y ys =>
        obtain ⟨lss, i1, i2, i3⟩ := ih (by simp) fun z hz => hx z (List.mem_cons_of_mem _ hz)
        refine ⟨ls :: lss, .cons l2 i1, by simp [l1], ?_⟩
        rw [List.flatten_cons, intercalate_append _ _ l1 i2]
        simp only [List.map_cons, writeSections] at i3 ⊢
        exact (l3.append (.self (by simp [NoEscape]))).append i3
  cases r with
  | shiftReduce q name l text =>
    have hn := h.names (l, name) (by simp [Report.places])
    have ht := h.names (l, text) (by simp [Report.places])
    have hf := h.files (l, name) (by simp [Report.places])
    have hx := h.texts (l, name) (by simp [Report.places])
    obtain ⟨ls, l1, l2, l3⟩ := section_shown hf hx (told_shift (q := q) hn ht)
    exact ⟨_, .shiftReduce l2, by simp, herr "shift-reduce conflict in grammar".toList ls _ (by simp [NoEscape]) l1 l3⟩
  | precedence rules =>
    obtain ⟨lss, l1, l2, l3⟩ := many rules (fun s => "Token has identical precedence:\n\t".toList ++ bold s) (fun s => ["Token has identical precedence:".toList, '\t' :: s]) h.tells
      fun x hx => ⟨h.files x hx, h.texts x hx, told_token (h.names x hx)⟩
    exact ⟨_, .precedence l1, by simp, herr "conflicting token precedences in grammar".toList _ _ (by simp [NoEscape]) l2 l3⟩
  | reduceReduce q items =>
    obtain ⟨lss, l1, l2, l3⟩ := many items (fun s => "In state ".toList ++ bold (decimal q) ++ ":\nCould reduce this item:\n\t".toList ++ bold s)
      (fun s => ["In state ".toList ++ decimal q ++ [':'], "Could reduce this item:".toList, '\t' :: s]) h.tells
      fun x hx => ⟨h.files x hx, h.texts x hx, told_reduce (h.names x hx)⟩
    exact ⟨_, .reduceReduce l1, by simp, herr "reduce-reduce conflict in grammar".toList _ _ (by simp [NoEscape]) l2 l3⟩
  | io file =>
    obtain ⟨h1, h2⟩ := h.io file rfl
    refine ⟨_, .io, by simp, herr "failed to read grammar file".toList ["     file: ".toList ++ file, "     reason: ".toList ++ reason] _ (by simp [NoEscape]) (by simp) ?_⟩
    have := (((Shown.self (a := "     file: ".toList) (by simp [NoEscape])).append (.self h1)).append (.self (a := "\n     reason: ".toList) (by simp [NoEscape]))).append (.self h2)
    have e : List.intercalate ['\n'] ["     file: ".toList ++ file, "     reason: ".toList ++ reason] = "     file: ".toList ++ file ++ "\n     reason: ".toList ++ reason := by
      simp [List.intercalate, List.intersperse]
    rw [e]
    exact this

theorem textOfLines_eq (ls : List (List Char)) (h : ls ≠ []) : textOfLines ls = List.intercalate ['\n'] ls ++ ['\n'] := by
  induction ls with
  | nil => exact absurd rfl h
  | cons x xs ih =>
    cases xs with
    | nil => simp [textOfLines, List.intercalate]
    | cons y ys =>
      have := ih (by simp)
      simp only [textOfLines, List.map_cons, List.flatten_cons] at this ⊢
      rw [this]
      simp [List.intercalate, List.intersperse]

theorem reports_shown {reason : List Char} {rs : List Report} (h : ∀ r ∈ rs, r.Printable reason) :
    ∃ blocks : List (List (List Char)), List.Forall₂ (ReportLines reason) rs blocks ∧ Shown (printReports reason rs) (textOfLines (List.intercalate [[]] blocks)) := by
  induction rs with
  | nil => exact ⟨[], .nil, .self (a := []) (by simp [NoEscape])⟩
  | cons r rs ih =>
    obtain ⟨ls, h1, h2, h3⟩ := display_shown (h r List.mem_cons_self)
    have nl : Shown ['\n'] ['\n'] := .self (by simp [NoEscape])
    cases rs with
    | nil =>
      refine ⟨[ls], .cons h1 .nil, ?_⟩
      rw [show List.intercalate [([] : List Char)] [ls] = ls by simp [List.intercalate], textOfLines_eq ls h2]
      exact h3.append nl
    | cons s ss =>
      obtain ⟨blocks, i1, i2⟩ := ih fun x hx => h x (List.mem_cons_of_mem _ hx)
      refine ⟨ls :: blocks, .cons h1 i1, ?_⟩
      cases i1 with
      | @cons _ b _ bs j1 j2 =>
        have e : textOfLines (List.intercalate [([] : List Char)] (ls :: b :: bs)) = textOfLines ls ++ ['\n'] ++ textOfLines (List.intercalate [([] : List Char)] (b :: bs)) := by
          simp [textOfLines, List.intercalate, List.intersperse]
        rw [e, textOfLines_eq ls h2]
        exact ((h3.append nl).append nl).append i2

end Verif
