import Verif.Spec.RustMessage
import Verif.Proofs.RustGlrFile

/-! # Messages of errors in generated Rust code -/

set_option autoImplicit false

namespace Verif

/-- the function `fmt` of the LR parser -/
def lrFmt : RForest := rs! "
  match self {
      ParserError::UnexpectedToken { got, expected } => write!(
          f,
          \"Unexpected token {:?}, expected one of: {:?}\",
          got, expected
      ),
  }"

/-- the function `fmt` of the GLR parser -/
def glrFmt : RForest := rs! "
  match self {
      ParserError::UnexpectedToken {
          got,
          got_data: _,
          expected,
      } => write!(
          f,
          \"Unexpected token {:?}, expected one of: {:?}\",
          got, expected
      ),
      ParserError::LexerError { inner } => write!(f, \"{}\", inner),
      ParserError::UnexpectedTokens { got, expected } => {
          let errors: Vec<String> = got
              .iter()
              .zip(expected.iter())
              .map(|((got, _got_data), expected)| {
                  format!(
                      \"Unexpected token {:?}, expected one of: {:?}\",
                      got, expected
                  )
              })
              .collect();
          write!(
              f,
              \"Multiple diverging parse stacks reached unexpected ends:\\n{}\",
              errors.join(\"\\n\")
          )
      }
  }"

/-- the function `fmt` of the lexer -/
def lexFmt : RForest := rs! "
  match self {
      LexerError::InvalidChar { bad_ch } => write!(
          f,
          \"Lexer got strange codepoint {}, char value is '{:?}'\",
          bad_ch,
          std::char::from_u32(*bad_ch)
      ),
      LexerError::UnexpectedAlphabet { range } => write!(
          f,
          \"Lexer got char in unexpected range: {:?}\",
          range
      )
  }"

theorem find_lrFmt (m entry nts rules actions gotos reds visits : RForest) :
    (findDisplay none (rParserStream m entry nts rules actions gotos reds visits)).bind (findFn "fmt".toList .look) = some lrFmt := rfl

theorem find_glrFmt (m d entry nts rules actions gotos reds visits : RForest) :
    (findDisplay none (glrStream m d entry nts rules actions gotos reds visits)).bind (findFn "fmt".toList .look) = some glrFmt := rfl

theorem find_lexFmt (a b c : RForest) : (findDisplay none (rustLexerTokens a b c)).bind (findFn "fmt".toList .look) = some lexFmt := rfl

/-- arms of the function `fmt` -/
def fmtArms (b : RForest) : Option (List DStmt) := do
  match ← readD (2 * b.size) b with
  | [.choice x arms] => if x = rs! "self" then some arms else none
  | _ => none

variable (cd : Char → List Char)

theorem message_of {text : List Char} {f b : RForest} (h : rRead text = some f) (h2 : (findDisplay none f).bind (findFn "fmt".toList .look) = some b) (e : RError) :
    rustMessage cd text e = (fmtArms b).bind (writeArms cd e) := by
  obtain ⟨i, h3, h4⟩ := Option.bind_eq_some_iff.mp h2
  unfold rustMessage fmtArms
  rw [h]
  simp only [Option.bind_eq_bind, Option.bind_some, h3, h4]
  cases readD (2 * b.size) b with
  | none => rfl
  | some ss =>
    simp only [Option.bind_some]
    rcases ss with _ | ⟨s, _ | ⟨s2, ss⟩⟩
    · rfl
    · cases s with
      | choice x arms =>
        show (if _ then _ else _) = Option.bind (if _ then _ else _) _
        split <;> rfl
      | _ => rfl
    · cases s <;> rfl

/-- the arms of `fmt` in the LR parser -/
def lrArms : List DStmt := [.arm (rs! "ParserError::UnexpectedToken { got, expected }") [.tail (rs! "write!(f, \"Unexpected token {:?}, expected one of: {:?}\", got, expected)")]]

theorem lrFmt_arms : fmtArms lrFmt = some lrArms := rfl

/-- the arms of `fmt` in the lexer -/
def lexErrArms : List DStmt := [
  .arm (rs! "LexerError::InvalidChar { bad_ch }") [.tail (rs! "write!(f, \"Lexer got strange codepoint {}, char value is '{:?}'\", bad_ch, std::char::from_u32(*bad_ch))")],
  .arm (rs! "LexerError::UnexpectedAlphabet { range }") [.tail (rs! "write!(f, \"Lexer got char in unexpected range: {:?}\", range)")]]

theorem lexFmt_arms : fmtArms lexFmt = some lexErrArms := rfl

/-- the statement that collects the messages -/
def collectStmt : RForest := rs! "let errors: Vec<String> = got.iter().zip(expected.iter()).map(|((got, _got_data), expected)| {
  format!(\"Unexpected token {:?}, expected one of: {:?}\", got, expected)
}).collect()"

/-- the arms of `fmt` in the GLR parser -/
def glrErrArms : List DStmt := [
  .arm (rs! "ParserError::UnexpectedToken { got, got_data: _, expected, }") [.tail (rs! "write!(f, \"Unexpected token {:?}, expected one of: {:?}\", got, expected)")],
  .arm (rs! "ParserError::LexerError { inner }") [.tail (rs! "write!(f, \"{}\", inner)")],
  .arm (rs! "ParserError::UnexpectedTokens { got, expected }") [.simple collectStmt,
    .tail (rs! "write!(f, \"Multiple diverging parse stacks reached unexpected ends:\\n{}\", errors.join(\"\\n\"))")]]

theorem glrFmt_arms : fmtArms glrFmt = some glrErrArms := rfl

theorem format_unexpected (got : List Char) (expected : List (List Char)) :
    formatText cd "Unexpected token {:?}, expected one of: {:?}".toList [.token got, .tokens expected] = some (unexpectedText got expected) := by
  have : formatText cd "Unexpected token {:?}, expected one of: {:?}".toList [.token got, .tokens expected] =
    some ("Unexpected token ".toList ++ (got ++ (", expected one of: ".toList ++ (listText expected ++ [])))) := rfl
  refine this.trans (congrArg some ?_)
  unfold unexpectedText
  rw [List.append_nil, List.append_assoc, List.append_assoc]

theorem lr_writes (got : List Char) (expected : List (List Char)) :
    writeArms cd ⟨"ParserError".toList, "UnexpectedToken".toList, [("got".toList, .token got), ("expected".toList, .tokens expected)]⟩ lrArms = some (unexpectedText got expected) :=
  format_unexpected cd got expected

theorem glr_writes_one (got : List Char) (expected : List (List Char)) :
    writeArms cd ⟨"ParserError".toList, "UnexpectedToken".toList, [("got".toList, .token got), ("got_data".toList, .any), ("expected".toList, .tokens expected)]⟩ glrErrArms =
      some (unexpectedText got expected) :=
  format_unexpected cd got expected

theorem glr_writes_lexer (t : List Char) :
    writeArms cd ⟨"ParserError".toList, "LexerError".toList, [("inner".toList, .text t)]⟩ glrErrArms = some t := by
  have : writeArms cd ⟨"ParserError".toList, "LexerError".toList, [("inner".toList, .text t)]⟩ glrErrArms = some (t ++ []) := rfl
  rw [this, List.append_nil]

theorem lex_writes_char (n : Nat) : writeArms cd ⟨"LexerError".toList, "InvalidChar".toList, [("bad_ch".toList, .num n)]⟩ lexErrArms =
    some ("Lexer got strange codepoint ".toList ++ decimal n ++ ", char value is '".toList ++ ((if n.isValidChar then "Some(".toList ++ cd (Char.ofNat n) ++ ")".toList else "None".toList) ++ "'".toList)) := by
  have : writeArms cd ⟨"LexerError".toList, "InvalidChar".toList, [("bad_ch".toList, .num n)]⟩ lexErrArms =
    some ("Lexer got strange codepoint ".toList ++ (decimal n ++ (", char value is '".toList ++ ((if n.isValidChar then "Some(".toList ++ cd (Char.ofNat n) ++ ")".toList else "None".toList) ++ "'".toList)))) := rfl
  rw [this]
  simp only [List.append_assoc]

theorem lex_writes_range (a b : Nat) : writeArms cd ⟨"LexerError".toList, "UnexpectedAlphabet".toList, [("range".toList, .range a b)]⟩ lexErrArms =
    some ("Lexer got char in unexpected range: ".toList ++ (decimal a ++ "..=".toList ++ decimal b)) := by
  have : writeArms cd ⟨"LexerError".toList, "UnexpectedAlphabet".toList, [("range".toList, .range a b)]⟩ lexErrArms =
    some ("Lexer got char in unexpected range: ".toList ++ ((decimal a ++ "..=".toList ++ decimal b) ++ [])) := rfl
  rw [this, List.append_nil]

theorem collect_all (gs : List (List Char)) (es : List (List (List Char))) :
    collectErrors cd [("got".toList, .pairs gs), ("expected".toList, .tokenLists es)] collectStmt =
      some (("errors".toList, .texts ((gs.zip es).map fun x => unexpectedText x.1 x.2)) :: [("got".toList, .pairs gs), ("expected".toList, .tokenLists es)]) := by
  have h : ∀ l : List (List Char × List (List Char)), l.mapM (fun x => formatMacro cd [("got".toList, .token x.1), ("_got_data".toList, .any), ("expected".toList, .tokens x.2)] (bracePart (mapPart collectStmt))) =
      some (l.map fun x => unexpectedText x.1 x.2) := by
    intro l
    induction l with
    | nil => rfl
    | cons x l ih =>
      rw [List.mapM_cons, ih, show formatMacro cd [("got".toList, .token x.1), ("_got_data".toList, .any), ("expected".toList, .tokens x.2)] (bracePart (mapPart collectStmt)) =
        some (unexpectedText x.1 x.2) from format_unexpected cd x.1 x.2]
      rfl
  unfold collectErrors
  rw [if_pos (by constructor <;> rfl)]
  show Option.bind ((gs.zip es).mapM fun x => formatMacro cd [("got".toList, .token x.1), ("_got_data".toList, .any), ("expected".toList, .tokens x.2)] (bracePart (mapPart collectStmt))) _ = _
  rw [h]
  rfl

theorem glr_writes_all (gs : List (List Char)) (es : List (List (List Char))) :
    writeArms cd ⟨"ParserError".toList, "UnexpectedTokens".toList, [("got".toList, .pairs gs), ("expected".toList, .tokenLists es)]⟩ glrErrArms =
      some ("Multiple diverging parse stacks reached unexpected ends:\n".toList ++ List.intercalate ['\n'] ((gs.zip es).map fun x => unexpectedText x.1 x.2)) := by
  show (collectErrors cd [("got".toList, .pairs gs), ("expected".toList, .tokenLists es)] collectStmt).bind _ = _
  rw [collect_all]
  show some ("Multiple diverging parse stacks reached unexpected ends:\n".toList ++ (List.intercalate ['\n'] ((gs.zip es).map fun x => unexpectedText x.1 x.2) ++ [])) = _
  rw [List.append_nil]

/-! ## Messages can be read back -/

theorem split_at {a b a' b' : List Char} {c : Char} (h : c ∉ a) (h' : c ∉ a') (e : a ++ c :: b = a' ++ c :: b') : a = a' ∧ b = b' := by
  induction a generalizing a' with
  | nil =>
    cases a' with
    | nil => simpa using e
    | cons x a' =>
      simp only [List.nil_append, List.cons_append, List.cons.injEq] at e
      exact absurd (by simp [e.1]) h'
  | cons x a ih =>
    cases a' with
    | nil =>
      simp only [List.nil_append, List.cons_append, List.cons.injEq] at e
      exact absurd (by simp [e.1]) h
    | cons y a' =>
      simp only [List.cons_append, List.cons.injEq] at e
      obtain ⟨h1, h2⟩ := ih (fun hm => h (List.mem_cons_of_mem _ hm)) (fun hm => h' (List.mem_cons_of_mem _ hm)) e.2
      exact ⟨by rw [e.1, h1], h2⟩

theorem list_inj {vs vs' : List (List Char)} (h : ∀ w ∈ vs, Separate w) (h' : ∀ w ∈ vs', Separate w) {r r' : List Char}
    (e : List.intercalate ", ".toList vs ++ ']' :: r = List.intercalate ", ".toList vs' ++ ']' :: r') : vs = vs' ∧ r = r' := by
  have one : ∀ w : List Char, List.intercalate ", ".toList [w] = w := fun w => by simp [List.intercalate]
  have two : ∀ (w w' : List Char) ws, List.intercalate ", ".toList (w :: w' :: ws) = w ++ ',' :: (' ' :: List.intercalate ", ".toList (w' :: ws)) := fun w w' ws => by
    simp [List.intercalate, List.intersperse]
  induction vs generalizing vs' with
  | nil =>
    cases vs' with
    | nil => simpa [List.intercalate] using e
    | cons w ws =>
      exfalso
      obtain ⟨h1, _, h3⟩ := h' w (by simp)
      obtain ⟨c, w, rfl⟩ := List.exists_cons_of_ne_nil h1
      cases ws with
      | nil => rw [one] at e; simp [List.intercalate] at e; exact h3 (List.mem_cons.mpr (.inl e.1))
      | cons w' ws => rw [two] at e; simp [List.intercalate] at e; exact h3 (List.mem_cons.mpr (.inl e.1))
  | cons w ws ih =>
    obtain ⟨h1, h2, h3⟩ := h w (by simp)
    cases vs' with
    | nil =>
      exfalso
      obtain ⟨c, w, rfl⟩ := List.exists_cons_of_ne_nil h1
      cases ws with
      | nil => rw [one] at e; simp [List.intercalate] at e; exact h3 (by simp [e.1])
      | cons w' ws => rw [two] at e; simp [List.intercalate] at e; exact h3 (by simp [e.1])
    | cons x xs =>
      obtain ⟨k1, k2, k3⟩ := h' x (by simp)
      have mixed : ∀ {a b : List Char} {y z : List Char}, ',' ∉ a → ']' ∉ b → a ++ ']' :: y = b ++ ',' :: z → False := by
        intro a b y z ha hb e
        induction a generalizing b with
        | nil =>
          cases b with
          | nil => simp at e
          | cons d b => simp only [List.nil_append, List.cons_append, List.cons.injEq] at e; exact hb (List.mem_cons.mpr (.inl e.1))
        | cons d a ih' =>
          cases b with
          | nil => simp only [List.nil_append, List.cons_append, List.cons.injEq] at e; exact ha (by simp [e.1])
          | cons d' b =>
            simp only [List.cons_append, List.cons.injEq] at e
            exact ih' (fun hm => ha (List.mem_cons_of_mem _ hm)) (fun hm => hb (List.mem_cons_of_mem _ hm)) e.2
      cases ws with
      | nil =>
        cases xs with
        | nil =>
          rw [one, one] at e
          obtain ⟨e1, e2⟩ := split_at h3 k3 e
          exact ⟨by rw [e1], e2⟩
        | cons x' xs =>
          rw [one, two, List.append_assoc] at e
          exact (mixed h2 k3 e).elim
      | cons w' ws =>
        cases xs with
        | nil =>
          rw [one, two, List.append_assoc] at e
          exact (mixed k2 h3 e.symm).elim
        | cons x' xs =>
          rw [two, two, List.append_assoc, List.append_assoc] at e
          obtain ⟨e1, e2⟩ := split_at h2 k2 e
          injection e2 with _ e2
          obtain ⟨e3, e4⟩ := ih (fun y hy => h y (List.mem_cons_of_mem _ hy)) (fun y hy => h' y (List.mem_cons_of_mem _ hy)) e2
          exact ⟨by rw [e1, e3], e4⟩

theorem unexpected_inj {got got' : List Char} {expected expected' : List (List Char)} (hg : ',' ∉ got) (hg' : ',' ∉ got') (he : ∀ w ∈ expected, Separate w) (he' : ∀ w ∈ expected', Separate w)
    (e : unexpectedText got expected = unexpectedText got' expected') : got = got' ∧ expected = expected' := by
  have form : ∀ (g : List Char) (es : List (List Char)), unexpectedText g es = "Unexpected token ".toList ++ (g ++ ',' :: (" expected one of: [".toList ++ (List.intercalate ", ".toList es ++ ']' :: []))) := by
    intro g es
    have hB : ∀ x : List Char, ", expected one of: ".toList ++ ("[".toList ++ x) = ',' :: (" expected one of: [".toList ++ x) := fun _ => rfl
    unfold unexpectedText listText
    rw [List.append_assoc, List.append_assoc, List.append_assoc "[".toList, hB]
    rfl
  rw [form, form] at e
  obtain ⟨e1, e2⟩ := split_at hg hg' (List.append_cancel_left e)
  exact ⟨e1, (list_inj he he' (List.append_cancel_left e2)).1⟩

theorem lines_inj {ls ls' : List (List Char)} (h : ∀ l ∈ ls, l ≠ [] ∧ '\n' ∉ l) (h' : ∀ l ∈ ls', l ≠ [] ∧ '\n' ∉ l) (e : List.intercalate ['\n'] ls = List.intercalate ['\n'] ls') : ls = ls' := by
  have one : ∀ w : List Char, List.intercalate ['\n'] [w] = w := fun w => by simp [List.intercalate]
  have two : ∀ (w w' : List Char) ws, List.intercalate ['\n'] (w :: w' :: ws) = w ++ '\n' :: List.intercalate ['\n'] (w' :: ws) := fun w w' ws => by
    simp [List.intercalate, List.intersperse]
  have zero : ∀ (w : List Char) ws, w ≠ [] → List.intercalate ['\n'] (w :: ws) ≠ List.intercalate ['\n'] [] := by
    intro w ws hw e
    cases ws with
    | nil => rw [one] at e; exact hw e
    | cons w' ws => rw [two] at e; simp [List.intercalate] at e
  induction ls generalizing ls' with
  | nil =>
    cases ls' with
    | nil => rfl
    | cons w ws => exact absurd e.symm (zero w ws (h' w (by simp)).1)
  | cons w ws ih =>
    cases ls' with
    | nil => exact absurd e (zero w ws (h w (by simp)).1)
    | cons x xs =>
      have hw := (h w (by simp)).2
      have hx := (h' x (by simp)).2
      cases ws with
      | nil =>
        cases xs with
        | nil => rw [one, one] at e; rw [e]
        | cons x' xs => rw [one, two] at e; exact absurd (by rw [e]; simp) hw
      | cons w' ws =>
        cases xs with
        | nil => rw [one, two] at e; exact absurd (by rw [← e]; simp) hx
        | cons x' xs =>
          rw [two, two] at e
          obtain ⟨e1, e2⟩ := split_at hw hx e
          rw [e1, ih (fun y hy => h y (List.mem_cons_of_mem _ hy)) (fun y hy => h' y (List.mem_cons_of_mem _ hy)) e2]

theorem separate_of {w : List Char} (h : IsWord w) (hne : w ≠ []) : Separate w :=
  ⟨hne, fun hm => absurd (h _ hm) (by decide), fun hm => absurd (h _ hm) (by decide)⟩

theorem noLine_list {vs : List (List Char)} (h : ∀ w ∈ vs, IsWord w) : '\n' ∉ listText vs := by
  have hi : ∀ vs : List (List Char), (∀ w ∈ vs, IsWord w) → '\n' ∉ List.intercalate ", ".toList vs := by
    intro vs
    induction vs with
    | nil => intro _; simp [List.intercalate]
    | cons w ws ih =>
      intro h hm
      have hw : '\n' ∉ w := fun hm => absurd (h w (by simp) _ hm) (by decide)
      have hws := ih fun x hx => h x (List.mem_cons_of_mem _ hx)
      cases ws with
      | nil => simp [List.intercalate] at hm; exact hw hm
      | cons x xs =>
        rw [show List.intercalate ", ".toList (w :: x :: xs) = w ++ (',' :: ' ' :: List.intercalate ", ".toList (x :: xs)) by simp [List.intercalate, List.intersperse]] at hm
        rcases List.mem_append.mp hm with hm | hm
        · exact hw hm
        · rcases List.mem_cons.mp hm with hm | hm
          · exact absurd hm (by decide)
          · rcases List.mem_cons.mp hm with hm | hm
            · exact absurd hm (by decide)
            · exact hws hm
  unfold listText
  intro hm
  rcases List.mem_append.mp hm with hm | hm
  · rcases List.mem_append.mp hm with hm | hm
    · exact absurd hm (by decide)
    · exact hi vs h hm
  · exact absurd hm (by decide)

theorem noLine_unexpected {got : List Char} {expected : List (List Char)} (hg : IsWord got) (he : ∀ w ∈ expected, IsWord w) : unexpectedText got expected ≠ [] ∧ '\n' ∉ unexpectedText got expected := by
  constructor
  · intro h
    unfold unexpectedText at h
    rw [List.append_assoc, List.append_assoc] at h
    exact absurd (List.append_eq_nil_iff.mp h).1 (by decide)
  · intro hm
    unfold unexpectedText at hm
    rcases List.mem_append.mp hm with hm | hm
    · rcases List.mem_append.mp hm with hm | hm
      · rcases List.mem_append.mp hm with hm | hm
        · exact absurd hm (by decide)
        · exact absurd (hg _ hm) (by decide)
      · exact absurd hm (by decide)
    · exact noLine_list he hm

end Verif
